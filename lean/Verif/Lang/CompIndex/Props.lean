import Verif.Lang.CompIndex.Model
/-!
# Tuples and indexes at compile time: properties
-/
namespace Verif.CompIndex

/-! ## Transforms of tuples -/

/-- The index as the transform sees it. -/
def Form.sees (f : Form) (p : Nat × Nat) : Option Nat := if f.index = true then some p.2 else none

/-- The condition holds for a member with its index, or there is none. -/
def Form.keeps (f : Form) (p : Nat × Nat) : Prop := ∀ c, f.cond = some c → c p.1 (f.sees p) = .bool true

/-- The condition does not hold. -/
def Form.drops (f : Form) (p : Nat × Nat) : Prop := ∃ c, f.cond = some c ∧ c p.1 (f.sees p) = .bool false

/-- `Result f ps ts`: `ts` are the transformed members of those in `ps` for which the condition holds, in order. -/
inductive Result (f : Form) : List (Nat × Nat) → List Nat → Prop where
  | nil : Result f [] []
  | keep {p ps t ts} : f.keeps p → f.form p.1 (f.sees p) = some t → Result f ps ts → Result f (p :: ps) (t :: ts)
  | drop {p ps ts} : f.drops p → Result f ps ts → Result f (p :: ps) ts

/-- A member that cannot be transformed. -/
def Form.fails (f : Form) (p : Nat × Nat) : Prop := ¬ f.drops p ∧ (f.keeps p → f.form p.1 (f.sees p) = none)

theorem store_eq (f : Form) (m i cap : Nat) (acc : List Nat) (k : List Nat → Res) (hc : acc.length < cap) :
    store f m (if f.index then some i else none) cap acc k =
      match f.form m (f.sees (m, i)) with | none => .error | some t => k (acc ++ [t]) := by
  unfold store Form.sees
  cases f.form m (if f.index then some i else none) <;> simp [hc]

theorem loop_spec (f : Form) (cap : Nat) : ∀ (ms : List Nat) (i : Nat) (acc : List Nat), acc.length + ms.length ≤ cap →
    (∃ ts, Result f (ms.zipIdx i) ts ∧ loop f cap ms i acc = .ok (acc ++ ts)) ∨
    ((∃ p ∈ ms.zipIdx i, f.fails p) ∧ loop f cap ms i acc = .error)
  | [], i, acc, _ => .inl ⟨[], .nil, by simp [loop]⟩
  | m :: ms, i, acc, h => by
    simp only [List.length_cons] at h
    have hc : acc.length < cap := by omega
    have step : f.keeps (m, i) → loop f cap (m :: ms) i acc = store f m (if f.index then some i else none) cap acc (loop f cap ms (i + 1)) →
        (∃ ts, Result f ((m :: ms).zipIdx i) ts ∧ loop f cap (m :: ms) i acc = .ok (acc ++ ts)) ∨
        ((∃ p ∈ (m :: ms).zipIdx i, f.fails p) ∧ loop f cap (m :: ms) i acc = .error) := by
      intro hk he
      rw [he, store_eq f m i cap acc _ hc, List.zipIdx_cons]
      cases hf : f.form m (f.sees (m, i)) with
      | none =>
        refine .inr ⟨⟨(m, i), List.mem_cons_self .., fun ⟨c, hc1, hc2⟩ => ?_, fun _ => hf⟩, rfl⟩
        have := hk c hc1
        rw [hc2] at this
        simp at this
      | some t =>
        rcases loop_spec f cap ms (i + 1) (acc ++ [t]) (by simp; omega) with ⟨ts, h1, h2⟩ | ⟨⟨p, h1, h2⟩, h3⟩
        · exact .inl ⟨t :: ts, .keep hk hf h1, by simp only [h2, List.append_assoc, List.cons_append, List.nil_append]⟩
        · exact .inr ⟨⟨p, List.mem_cons_of_mem _ h1, h2⟩, h3⟩
    cases hcond : f.cond with
    | none => exact step (fun c h => by rw [hcond] at h; simp at h) (by simp only [loop, hcond])
    | some c =>
      have bad : (∀ b, c m (f.sees (m, i)) ≠ .bool b) → f.fails (m, i) := fun hb =>
        ⟨fun ⟨c', h1, h2⟩ => by rw [hcond] at h1; cases h1; exact hb _ h2, fun hk => absurd (hk c hcond) (hb true)⟩
      have hs : (if f.index = true then some i else none) = f.sees (m, i) := rfl
      cases hv : c m (f.sees (m, i)) with
      | error =>
        exact .inr ⟨⟨(m, i), by simp [List.zipIdx_cons], bad (by simp [hv])⟩, by simp only [loop, hcond, hs, hv]⟩
      | other =>
        exact .inr ⟨⟨(m, i), by simp [List.zipIdx_cons], bad (by simp [hv])⟩, by simp only [loop, hcond, hs, hv]⟩
      | bool b =>
        cases b with
        | true =>
          exact step (fun c' h => by rw [hcond] at h; cases h; exact hv) (by simp only [loop, hcond, hs, hv])
        | false =>
          have he : loop f cap (m :: ms) i acc = loop f cap ms (i + 1) acc := by simp only [loop, hcond, hs, hv]
          rw [he, List.zipIdx_cons]
          rcases loop_spec f cap ms (i + 1) acc (by omega) with ⟨ts, h1, h2⟩ | ⟨⟨p, h1, h2⟩, h3⟩
          · exact .inl ⟨ts, .drop ⟨c, hcond, hv⟩ h1, h2⟩
          · exact .inr ⟨⟨p, List.mem_cons_of_mem _ h1, h2⟩, h3⟩

theorem result_not_fails {f : Form} {ps ts} (h : Result f ps ts) : ∀ p ∈ ps, ¬ f.fails p := by
  induction h with
  | nil => simp
  | keep hk hf _ ih =>
    intro p hp
    rcases List.mem_cons.1 hp with rfl | hp
    · exact fun hn => by have := hn.2 hk; rw [hf] at this; simp at this
    · exact ih p hp
  | drop hd _ ih =>
    intro p hp
    rcases List.mem_cons.1 hp with rfl | hp
    · exact fun hn => hn.1 hd
    · exact ih p hp

/-- **The transform of a tuple has the transformed members for which the condition holds**, in order and with their own indexes,
and nothing is written behind the array. -/
theorem xform_right (f : Form) (ms ts : List Nat) : xform f (some ms) = .ok ts ↔ Result f ms.zipIdx ts := by
  have hl := loop_spec f ms.length ms 0 [] (by simp)
  unfold xform
  constructor
  · intro h
    simp only at h
    rcases hl with ⟨ts', h1, h2⟩ | ⟨_, h3⟩
    · rw [h2] at h
      simp only [List.nil_append, Res.ok.injEq] at h
      exact h ▸ h1
    · rw [h3] at h; simp at h
  · intro h
    simp only
    rcases hl with ⟨ts', h1, h2⟩ | ⟨⟨p, h1, h2⟩, _⟩
    · have uniq : ∀ {ps a b}, Result f ps a → Result f ps b → a = b := by
        intro ps a b ha
        induction ha generalizing b with
        | nil => intro hb; cases hb; rfl
        | keep hk hf _ ih =>
          intro hb
          cases hb with
          | keep _ hf' hr => rw [hf] at hf'; cases hf'; rw [ih hr]
          | drop hd _ => obtain ⟨c, h1, h2⟩ := hd; have := hk c h1; rw [h2] at this; simp at this
        | drop hd _ ih =>
          intro hb
          cases hb with
          | keep hk _ _ => obtain ⟨c, h1, h2⟩ := hd; have := hk c h1; rw [h2] at this; simp at this
          | drop _ hr => exact ih hr
      rw [h2, List.nil_append, uniq h h1]
    · exact absurd h2 (result_not_fails h p h1)

/-- **It is an error exactly if a member cannot be transformed**: its condition is not a boolean, or holds and there is no type. -/
theorem xform_error_iff (f : Form) (ms : List Nat) : xform f (some ms) = .error ↔ ∃ p ∈ ms.zipIdx, f.fails p := by
  have hl := loop_spec f ms.length ms 0 [] (by simp)
  unfold xform
  simp only
  constructor
  · intro h
    rcases hl with ⟨ts, _, h2⟩ | ⟨h1, _⟩
    · rw [h2] at h; simp at h
    · exact h1
  · rintro ⟨p, h1, h2⟩
    rcases hl with ⟨ts, h3, _⟩ | ⟨_, h3⟩
    · exact absurd h2 (result_not_fails h3 p h1)
    · exact h3

/-! ## Indexes -/

theorem nodeAt_eq (j : Nat) : ∀ (xs : List Nat) (i : Nat), i ≤ j →
    nodeAt xs i j = (xs[j - i]?).map (fun x => (x, xs.drop (j - i + 1)))
  | [], i, _ => by simp [nodeAt]
  | x :: xs, i, h => by
    rw [nodeAt]
    split
    · rename_i he; subst he; simp
    · have hs : j - i = (j - (i + 1)) + 1 := by omega
      rw [nodeAt_eq j xs (i + 1) (by omega), hs, List.getElem?_cons_succ, List.drop_succ_cons]

theorem atIndex_eq (xs : List Nat) (i : Nat) : atIndex xs i =
    match xs[i]? with | none => .error | some x => .node x (xs.drop (i + 1)) := by
  unfold atIndex
  rw [nodeAt_eq i xs 0 (Nat.zero_le _)]
  simp only [Nat.sub_zero]
  cases xs[i]? <;> rfl

/-- `Picks xs i r`: `r` is the node of `xs` at `i`, or the error if there is none. -/
def Picks (xs : List Nat) (i : Int) (r : Ix) : Prop :=
  (∀ n : Nat, i = n → ∀ x, xs[n]? = some x → ∃ rest, r = .node x rest) ∧
  ((i < 0 ∨ (xs.length : Int) ≤ i) → r = .error)

theorem picks_atIndex (xs : List Nat) (i : Int) (len : Nat) (h : xs.length ≤ len) :
    Picks xs i (if i < 0 ∨ i.toNat ≥ len then .error else atIndex xs i.toNat) := by
  constructor
  · rintro n rfl x hx
    have hn := (List.getElem?_eq_some_iff.1 hx).1
    rw [if_neg (by simp; omega), Int.toNat_natCast, atIndex_eq, hx]
    exact ⟨_, rfl⟩
  · intro ho
    split
    · rfl
    · rename_i hne
      rw [atIndex_eq, List.getElem?_eq_none (by omega)]

/-- **Tuples**: every index gives its element, and any other is an error. -/
theorem tuple_right (xs : List Nat) (i : Int) : Picks xs i (index (.tup xs) i) := picks_atIndex xs i xs.length (Nat.le_refl _)

/-- **Attributes**: likewise, as long as the attribute has not more arguments than the address of its name. -/
theorem attr_right_partial (addr : Nat) (xs : List Nat) (i : Int) (h : xs.length ≤ addr) :
    Picks xs i (index (.attr addr false xs) i) := picks_atIndex xs i addr h

/-- **Arrays that are written in the program have no elements at compile time**: every index is an error. -/
theorem array_never (xs : List Nat) (i : Int) : index (.arr xs false) i = .error := by simp [index, lenOf]

/-- **Nor have the members of a declaration.** -/
theorem iter_never (xs : List Nat) (i : Int) : index (.iter xs) i = .error := by simp [index, lenOf]

/-- **An array has its elements exactly if it is empty or its length was set by the compiler.** -/
theorem array_iff (xs : List Nat) (counted : Bool) :
    (∀ i, Picks xs i (index (.arr xs counted) i)) ↔ counted = true ∨ xs = [] := by
  constructor
  · intro h
    cases counted with
    | true => exact .inl rfl
    | false =>
      refine .inr ?_
      cases xs with
      | nil => rfl
      | cons x xs =>
        obtain ⟨rest, hr⟩ := (h 0).1 0 rfl x rfl
        rw [array_never] at hr
        simp at hr
  · rintro (rfl | rfl) i
    · exact picks_atIndex xs i xs.length (Nat.le_refl _)
    · have := picks_atIndex [] i 0 (Nat.zero_le _)
      cases counted <;> simpa [index, lenOf] using this

/-- **Strings**: an index within the string gives the byte there exactly if it is ASCII. -/
theorem string_iff (bs : List Nat) (n b : Nat) (h : bs[n]? = some b) (hb : b < 256) :
    index (.str bs) n = .char b ↔ b < 128 := by
  have hn := (List.getElem?_eq_some_iff.1 h).1
  unfold index
  rw [if_neg (by simp only [lenOf]; omega)]
  simp only [Int.toNat_natCast, h, Ix.char.injEq, widen]
  split <;> omega

/-- **An index outside of a string is an error.** -/
theorem string_outside (bs : List Nat) (i : Int) (h : i < 0 ∨ (bs.length : Int) ≤ i) : index (.str bs) i = .error := by
  unfold index
  rw [if_pos (by simp only [lenOf]; omega)]

/-! ## Arguments of calls -/

theorem callArgs_acc : ∀ (as : List Arg) (acc : List Nat), callArgs as acc = (callArgs as []).map (acc ++ ·)
  | [], acc => by simp [callArgs]
  | a :: as, acc => by
    rw [callArgs, callArgs]
    cases a.chain with
    | none => rfl
    | some c =>
      simp only [List.nil_append]
      rw [callArgs_acc as (acc ++ c), callArgs_acc as c]
      cases callArgs as [] <;> simp

theorem callArgs_append (as bs : List Arg) : callArgs (as ++ bs) [] =
    (callArgs as []).bind (fun xs => (callArgs bs []).map (xs ++ ·)) := by
  induction as with
  | nil => simp [callArgs]
  | cons a as ih =>
    rw [List.cons_append, callArgs, callArgs]
    cases a.chain with
    | none => rfl
    | some c =>
      simp only [List.nil_append]
      rw [callArgs_acc, ih, callArgs_acc as c]
      cases callArgs as [] with
      | none => rfl
      | some xs => cases callArgs bs [] <;> simp

theorem callArgs_plain (xs : List Nat) : callArgs (xs.map .plain) [] = some xs := by
  induction xs with
  | nil => rfl
  | cons x xs ih =>
    rw [List.map_cons, callArgs]
    simp only [Arg.chain, List.nil_append]
    rw [callArgs_acc, ih]
    simp

/-- **An index into a tuple as an argument of a call passes the element and all that follow it.** -/
theorem call_passes (pre post xs : List Nat) (n : Nat) (h : n < xs.length) :
    callArgs (pre.map .plain ++ .index (.tup xs) n :: post.map .plain) [] = some (pre ++ xs.drop n ++ post) := by
  have hx : index (.tup xs) n = .node xs[n] (xs.drop (n + 1)) := by
    unfold index
    rw [if_neg (by simp only [lenOf]; omega)]
    simp only [Int.toNat_natCast]
    rw [atIndex_eq, List.getElem?_eq_getElem h]
  have hd : xs.drop n = xs[n] :: xs.drop (n + 1) := List.drop_eq_getElem_cons h
  rw [callArgs_append, callArgs_plain, Option.bind_some, callArgs]
  simp only [Arg.chain, hx, List.nil_append]
  rw [callArgs_acc, callArgs_plain, hd]
  simp

/-- **The call has the arguments that were written exactly if the index is that of the last element.** -/
theorem call_iff (pre post xs : List Nat) (n : Nat) (h : n < xs.length) :
    callArgs (pre.map .plain ++ .index (.tup xs) n :: post.map .plain) [] = some (pre ++ [xs[n]] ++ post) ↔ n + 1 = xs.length := by
  rw [call_passes pre post xs n h, Option.some.injEq]
  have hd : xs.drop n = xs[n] :: xs.drop (n + 1) := List.drop_eq_getElem_cons h
  constructor
  · intro he
    have := congrArg List.length he
    simp only [List.length_append, List.length_drop, List.length_cons, List.length_nil] at this
    omega
  · intro he
    rw [hd, List.drop_eq_nil_of_le (by omega)]

/-- **The last element**: the call has the arguments that were written. For other elements see `call_iff`. -/
theorem call_right_partial (pre post xs : List Nat) (y : Nat) :
    callArgs (pre.map .plain ++ .index (.tup (xs ++ [y])) xs.length :: post.map .plain) [] = some (pre ++ [y] ++ post) := by
  have := (call_iff pre post (xs ++ [y]) xs.length (by simp)).2 (by simp)
  simpa using this

/-! ## Cases -/

/-- Of the members 5, 6, 7 the even ones and the last are kept, and each becomes itself plus ten times its index. -/
def sample : Form where
  index := true
  cond := some (fun m ix => .bool (m % 2 = 0 || ix = some 2))
  form := fun m ix => ix.map (fun i => m + 10 * i)

example : xform sample (some [5, 6, 7]) = .ok [16, 27] := by decide
example : Result sample [5, 6, 7].zipIdx [16, 27] := (xform_right sample [5, 6, 7] [16, 27]).1 (by decide)
/-- A condition that is not a boolean. -/
example : xform { sample with cond := some (fun _ _ => .other) } (some [5]) = .error := by decide
/-- The second of three elements; then one behind the last. -/
example : index (.tup [5, 6, 7]) 1 = .node 6 [7] := by decide
example : index (.tup [5, 6, 7]) 3 = .error := by decide
/-- An attribute whose name is at 4096. -/
example : index (.attr 4096 false [8, 9]) 0 = .node 8 [9] := by decide
/-- `[5, 6]` has no element 0. -/
example : index (.arr [5, 6] false) 0 = .error := array_never [5, 6] 0
/-- "aé" in UTF-8: the byte 195 becomes 4294967235. -/
example : index (.str [97, 195, 169]) 0 = .char 97 := by decide
example : index (.str [97, 195, 169]) 1 = .char 4294967235 := by decide
/-- `f(1, #{(5, 6, 7).[0]}, 2)` passes five arguments. -/
example : callArgs [.plain 1, .index (.tup [5, 6, 7]) 0, .plain 2] [] = some [1, 5, 6, 7, 2] := by decide

end Verif.CompIndex
