/-!
# Model of `src/cxy/stdlib/trie.cxy`

Nodes live in a heap of cells with increasing addresses.  The `children` hash map of a node is a finite map from
characters to nodes (what `Verif.Std.HashMap` proves of `stdlib/hash.cxy` for insertions); memory is never
exhausted.
-/
namespace Verif.Trie

variable {α : Type}

/-- trie.cxy 5-9: the heap of nodes; node 0 is `Trie.root` (line 41). -/
structure Heap (α : Type) where
  next : Nat
  child : Nat → Nat → Option Nat
  data : Nat → Option α

/-- trie.cxy 43-45 `Trie.init` -/
def new (α : Type) : Heap α := ⟨1, fun _ _ => none, fun _ => none⟩

/-- trie.cxy 16-25 `TrieNode.add` -/
def addChild (h : Heap α) (n : Nat) (c : Nat) : Nat × Heap α :=
  match h.child n c with
  | some m => (m, h)
  | none =>
    (h.next, { next := h.next + 1
               child := fun n' c' => if n' = n ∧ c' = c then some h.next else if n' = h.next then none else h.child n' c'
               data := fun n' => if n' = h.next then none else h.data n' })

/-- trie.cxy 65-67: the loop of `add`. -/
def addPath (h : Heap α) (n : Nat) : List Nat → Nat × Heap α
  | [] => (n, h)
  | c :: cs => addPath (addChild h n c).2 (addChild h n c).1 cs

/-- trie.cxy 63-70 `add`; `none` is the failed assertion. -/
def add (h : Heap α) (key : List Nat) (d : α) : Option (Heap α) :=
  let r := addPath h 0 key
  match r.2.data r.1 with
  | some _ => none
  | none => some { r.2 with data := fun n => if n = r.1 then some d else r.2.data n }

/-- trie.cxy 72-87: the loop of the private `find`. -/
def findLoop (h : Heap α) (n i : Nat) (found : Option (Nat × α)) : List Nat → Option (Nat × α)
  | [] => found
  | c :: cs =>
    match h.child n c with
    | none => found
    | some m => findLoop h m (i + 1) (match h.data m with | some d => some (i + 1, d) | none => found) cs

/-- trie.cxy 52-61 `find` -/
def find (h : Heap α) (key : List Nat) : Option α :=
  match findLoop h 0 0 none key with
  | some (i, d) => if i = key.length then some d else none
  | none => none

/-- A sequence of additions; `none` when one of them fails its assertion. -/
def addAll (h : Heap α) : List (List Nat × α) → Option (Heap α)
  | [] => some h
  | (k, d) :: rest => (add h k d).bind fun h => addAll h rest

end Verif.Trie
