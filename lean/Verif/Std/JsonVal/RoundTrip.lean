import Verif.Std.JsonVal.Props
/-! # C186, C187: what is written is read back, and reading ends -/
namespace Verif.JsonVal

open Verif.Json (isSpace)

/-! ## C187: what is written is read back -/

/-- The names of the members. -/
def Fields.names : Fields → List (List Nat)
  | .nil => []
  | .cons n _ _ fs => n :: fs.names

mutual
/-- The value is of the type and can be represented: integers up to `2 ^ 53`, strings without a NUL, without a quote that has no backslash in
front and without a backslash at the end, no `null` as the value of an optional of an optional. The members of a structure have different
names. -/
def Fits : Ty → Val → Prop
  | .bool, .bool _ => True
  | .int t, .int v => t.holds v = true ∧ v.natAbs ≤ 2 ^ 53
  | .str, .str s => Json.Survives s
  | .opt _, .none => True
  | .opt t, .some v => v ≠ .none ∧ Fits t v
  | .tuple ts, .tup vs => FitsAll ts vs
  | .struct fs _, .obj vs => FitsFields fs vs ∧ fs.names.Nodup
  | _, _ => False
def FitsAll : Tys → List Val → Prop
  | .nil, [] => True
  | .cons t ts, v :: vs => Fits t v ∧ FitsAll ts vs
  | _, _ => False
def FitsFields : Fields → List Val → Prop
  | .nil, [] => True
  | .cons n t _ fs, v :: vs => Json.Survives n ∧ Fits t v ∧ FitsFields fs vs
  | _, _ => False
end

def Fields.isNil : Fields → Bool
  | .nil => true
  | _ => false

mutual
/-- What is written, as a document. -/
def doc : Ty → Val → Doc
  | .bool, .bool b => .bool b
  | .int _, .int v => .num (numOf v)
  | .str, .str s => .str s
  | .opt t, .some v => doc t v
  | .tuple ts, .tup vs => .arr (docs true ts vs) []
  | .struct fs _, .obj vs => .obj (mems true fs vs) []
  | _, _ => .null
def docs (first : Bool) : Tys → List Val → Docs
  | .cons t ts, v :: vs => .cons (if first then [] else [32]) (doc t v) [] (docs false ts vs)
  | _, _ => .nil
def mems (first : Bool) : Fields → List Val → Mems
  | .cons n t _ fs, v :: vs => .cons (if first then [] else [32]) n [] [32] (doc t v) [] (!fs.isNil) (mems false fs vs)
  | _, _ => .nil
end

theorem bmod_small (v : Int) (h : v.natAbs ≤ 2 ^ 53) : Int.bmod v (2 ^ 64) = v := by
  rw [Int.bmod_eq_of_le] <;> omega

mutual
theorem doc_text : ∀ (t : Ty) (v : Val), Fits t v → (doc t v).text = write t v
  | .bool, .bool b, _ => by cases b <;> rfl
  | .int t, .int v, h => by
    simp only [Fits] at h
    simp only [doc, Doc.text, write, writeInt, numOf_text, bmod_small v h.2]
  | .str, .str s, _ => rfl
  | .opt t, .none, _ => rfl
  | .opt t, .some v, h => by
    simp only [Fits] at h
    simp only [doc, write, doc_text t v h.2]
  | .tuple ts, .tup vs, h => by
    simp only [Fits] at h
    have := docs_text true ts vs h
    simp only [Bool.true_or, if_true, List.nil_append] at this
    simp only [doc, Doc.text, write, List.append_nil, this]
  | .struct fs p, .obj vs, h => by
    simp only [Fits] at h
    have := mems_text true fs vs h.1
    simp only [Bool.true_or, if_true, List.nil_append] at this
    simp only [doc, Doc.text, write, List.append_nil, this]
  | .bool, .int _, h => absurd h (by simp [Fits])
  | .bool, .str _, h => absurd h (by simp [Fits])
  | .bool, .tup _, h => absurd h (by simp [Fits])
  | .bool, .none, h => absurd h (by simp [Fits])
  | .bool, .some _, h => absurd h (by simp [Fits])
  | .bool, .obj _, h => absurd h (by simp [Fits])
  | .int _, .bool _, h => absurd h (by simp [Fits])
  | .int _, .str _, h => absurd h (by simp [Fits])
  | .int _, .tup _, h => absurd h (by simp [Fits])
  | .int _, .none, h => absurd h (by simp [Fits])
  | .int _, .some _, h => absurd h (by simp [Fits])
  | .int _, .obj _, h => absurd h (by simp [Fits])
  | .str, .bool _, h => absurd h (by simp [Fits])
  | .str, .int _, h => absurd h (by simp [Fits])
  | .str, .tup _, h => absurd h (by simp [Fits])
  | .str, .none, h => absurd h (by simp [Fits])
  | .str, .some _, h => absurd h (by simp [Fits])
  | .str, .obj _, h => absurd h (by simp [Fits])
  | .opt _, .bool _, h => absurd h (by simp [Fits])
  | .opt _, .int _, h => absurd h (by simp [Fits])
  | .opt _, .str _, h => absurd h (by simp [Fits])
  | .opt _, .tup _, h => absurd h (by simp [Fits])
  | .opt _, .obj _, h => absurd h (by simp [Fits])
  | .tuple _, .bool _, h => absurd h (by simp [Fits])
  | .tuple _, .int _, h => absurd h (by simp [Fits])
  | .tuple _, .str _, h => absurd h (by simp [Fits])
  | .tuple _, .none, h => absurd h (by simp [Fits])
  | .tuple _, .some _, h => absurd h (by simp [Fits])
  | .tuple _, .obj _, h => absurd h (by simp [Fits])
  | .struct _ _, .bool _, h => absurd h (by simp [Fits])
  | .struct _ _, .int _, h => absurd h (by simp [Fits])
  | .struct _ _, .str _, h => absurd h (by simp [Fits])
  | .struct _ _, .tup _, h => absurd h (by simp [Fits])
  | .struct _ _, .none, h => absurd h (by simp [Fits])
  | .struct _ _, .some _, h => absurd h (by simp [Fits])
theorem docs_text : ∀ (first : Bool) (ts : Tys) (vs : List Val), FitsAll ts vs →
    (if first || (docs first ts vs).isNil then [] else [44]) ++ (docs first ts vs).text = writeElems first ts vs
  | first, .nil, [], _ => by cases first <;> rfl
  | first, .nil, v :: vs, h => absurd h (by simp [FitsAll])
  | first, .cons t ts, [], h => absurd h (by simp [FitsAll])
  | first, .cons t ts, v :: vs, h => by
    simp only [FitsAll] at h
    have i1 := doc_text t v h.1
    have i2 := docs_text false ts vs h.2
    simp only [Bool.false_or] at i2
    simp only [docs, Docs.text_cons, writeElems, ← i1, ← i2, Docs.isNil]
    cases first <;> simp
theorem mems_text : ∀ (first : Bool) (fs : Fields) (vs : List Val), FitsFields fs vs →
    (if first || (mems first fs vs).isNil then [] else [44]) ++ (mems first fs vs).text = writeFields first fs vs
  | first, .nil, [], _ => by cases first <;> rfl
  | first, .nil, v :: vs, h => absurd h (by simp [FitsFields])
  | first, .cons n t i fs, [], h => absurd h (by simp [FitsFields])
  | first, .cons n t i fs, v :: vs, h => by
    simp only [FitsFields] at h
    have i1 := doc_text t v h.2.1
    have i2 := mems_text false fs vs h.2.2
    simp only [Bool.false_or] at i2
    have hc : fs.isNil = (mems false fs vs).isNil := by
      cases fs with
      | nil => simp [mems, Mems.isNil, Fields.isNil]
      | cons n' t' i' fs' =>
        cases vs with
        | nil => exact absurd h.2.2 (by simp [FitsFields])
        | cons v' vs' => simp [mems, Mems.isNil, Fields.isNil]
    have hn : ∀ b, (mems b (.cons n t i fs) (v :: vs)).isNil = false := fun b => by simp [mems, Mems.isNil]
    rw [hn]
    simp only [mems, Mems.text_cons, writeFields, ← i1, ← i2, hc]
    cases first <;> cases (mems false fs vs).isNil <;> simp
end

theorem find_skip (key : List Nat) : ∀ (fs : Fields) (i : Nat), key ∉ fs.names → fs.find i key = none
  | .nil, _, _ => rfl
  | .cons n t v fs, i, h => by
    simp only [Fields.names, List.mem_cons, not_or] at h
    rw [Fields.find, if_neg (fun e => h.1 e.symm)]
    exact find_skip key fs (i + 1) h.2

theorem fits_not_null : ∀ (t : Ty) (v : Val), Fits t v → v ≠ .none → doc t v ≠ .null
  | .bool, .bool b, _, _ => by simp [doc]
  | .int _, .int v, _, _ => by simp [doc]
  | .str, .str s, _, _ => by simp [doc]
  | .opt _, .none, _, h => absurd rfl h
  | .opt t, .some v, h, _ => by
    simp only [Fits] at h
    simp only [doc]
    exact fits_not_null t v h.2 h.1
  | .tuple ts, .tup vs, _, _ => by simp [doc]
  | .struct fs p, .obj vs, _, _ => by simp [doc]
  | .bool, .int _, h, _ => absurd h (by simp [Fits])
  | .bool, .str _, h, _ => absurd h (by simp [Fits])
  | .bool, .tup _, h, _ => absurd h (by simp [Fits])
  | .bool, .none, h, _ => absurd h (by simp [Fits])
  | .bool, .some _, h, _ => absurd h (by simp [Fits])
  | .bool, .obj _, h, _ => absurd h (by simp [Fits])
  | .int _, .bool _, h, _ => absurd h (by simp [Fits])
  | .int _, .str _, h, _ => absurd h (by simp [Fits])
  | .int _, .tup _, h, _ => absurd h (by simp [Fits])
  | .int _, .none, h, _ => absurd h (by simp [Fits])
  | .int _, .some _, h, _ => absurd h (by simp [Fits])
  | .int _, .obj _, h, _ => absurd h (by simp [Fits])
  | .str, .bool _, h, _ => absurd h (by simp [Fits])
  | .str, .int _, h, _ => absurd h (by simp [Fits])
  | .str, .tup _, h, _ => absurd h (by simp [Fits])
  | .str, .none, h, _ => absurd h (by simp [Fits])
  | .str, .some _, h, _ => absurd h (by simp [Fits])
  | .str, .obj _, h, _ => absurd h (by simp [Fits])
  | .opt _, .bool _, h, _ => absurd h (by simp [Fits])
  | .opt _, .int _, h, _ => absurd h (by simp [Fits])
  | .opt _, .str _, h, _ => absurd h (by simp [Fits])
  | .opt _, .tup _, h, _ => absurd h (by simp [Fits])
  | .opt _, .obj _, h, _ => absurd h (by simp [Fits])
  | .tuple _, .bool _, h, _ => absurd h (by simp [Fits])
  | .tuple _, .int _, h, _ => absurd h (by simp [Fits])
  | .tuple _, .str _, h, _ => absurd h (by simp [Fits])
  | .tuple _, .none, h, _ => absurd h (by simp [Fits])
  | .tuple _, .some _, h, _ => absurd h (by simp [Fits])
  | .tuple _, .obj _, h, _ => absurd h (by simp [Fits])
  | .struct _ _, .bool _, h, _ => absurd h (by simp [Fits])
  | .struct _ _, .int _, h, _ => absurd h (by simp [Fits])
  | .struct _ _, .str _, h, _ => absurd h (by simp [Fits])
  | .struct _ _, .tup _, h, _ => absurd h (by simp [Fits])
  | .struct _ _, .none, h, _ => absurd h (by simp [Fits])
  | .struct _ _, .some _, h, _ => absurd h (by simp [Fits])

/-- A document that is not `null` at an optional. -/
theorem val_opt (d : Doc) (t : Ty) (v : Val) (hd : d ≠ .null) (h : d.val t = some v) : d.val (.opt t) = some (.some v) := by
  cases d with
  | null => exact absurd rfl hd
  | bool b =>
    simp only [Doc.val, Ty.core] at h ⊢
    split at h
    · rename_i hc
      simp only [Option.some.injEq] at h
      simp [Ty.wrap, h]
    · simp at h
  | num n =>
    simp only [Doc.val, Ty.core] at h ⊢
    split at h
    · rename_i k hc
      cases hi : n.integer with
      | none => simp [hi] at h
      | some x =>
        simp only [hi, Option.bind_some] at h ⊢
        split at h
        · rename_i hx
          simp only [Option.some.injEq] at h
          simp only [hx, if_true, Ty.wrap, h]
        · simp at h
    · simp at h
  | str s =>
    simp only [Doc.val, Ty.core] at h ⊢
    split at h
    · rename_i hc
      split at h
      · rename_i hs
        simp only [Option.some.injEq] at h
        simp [hs, Ty.wrap, h]
      · simp at h
    · simp at h
  | arr ds w =>
    simp only [Doc.val, Ty.core] at h ⊢
    split at h
    · rename_i ts hc
      split at h
      · rename_i hs
        cases hv : ds.vals ts with
        | none => simp [hv] at h
        | some vs =>
          simp only [hv, Option.bind_some, Option.some.injEq] at h
          simp [hs, Ty.wrap, h]
      · simp at h
    · simp at h
  | obj ms w =>
    simp only [Doc.val, Ty.core] at h ⊢
    split at h
    · rename_i fs p hc
      split at h
      · rename_i hs
        cases hv : ms.vals fs p fs.inits with
        | none => simp [hv] at h
        | some vs =>
          simp only [hv, Option.bind_some, Option.some.injEq] at h
          simp [hs, Ty.wrap, h]
      · simp at h
    · simp at h

mutual
theorem doc_val : ∀ (t : Ty) (v : Val), Fits t v → (doc t v).val t = some v
  | .bool, .bool b, _ => rfl
  | .int t, .int v, h => by
    simp only [Fits] at h
    simp only [doc, Doc.val, Ty.core, numOf_integer, Option.bind_some, h.1, h.2, decide_true, Bool.and_self, if_true, Ty.wrap]
  | .str, .str s, h => by
    simp only [Fits] at h
    simp only [doc, Doc.val, Ty.core, (okStr_iff s).2 h, if_true, Ty.wrap]
  | .opt t, .none, _ => rfl
  | .opt t, .some v, h => by
    simp only [Fits] at h
    rw [show doc (.opt t) (.some v) = doc t v from by simp only [doc]]
    exact val_opt _ t v (fits_not_null t v h.2 h.1) (doc_val t v h.2)
  | .tuple ts, .tup vs, h => by
    simp only [Fits] at h
    simp only [doc, Doc.val, Ty.core, Ws.nil, if_true, docs_vals true ts vs h, Option.bind_some, Ty.wrap]
  | .struct fs p, .obj vs, h => by
    simp only [Fits] at h
    have := mems_vals fs p true fs 0 vs [] h.1 h.2 rfl (fun _ _ => rfl)
    simp only [List.nil_append] at this
    simp only [doc, Doc.val, Ty.core, Ws.nil, if_true, this, Option.bind_some, Ty.wrap]
  | .bool, .int _, h => absurd h (by simp [Fits])
  | .bool, .str _, h => absurd h (by simp [Fits])
  | .bool, .tup _, h => absurd h (by simp [Fits])
  | .bool, .none, h => absurd h (by simp [Fits])
  | .bool, .some _, h => absurd h (by simp [Fits])
  | .bool, .obj _, h => absurd h (by simp [Fits])
  | .int _, .bool _, h => absurd h (by simp [Fits])
  | .int _, .str _, h => absurd h (by simp [Fits])
  | .int _, .tup _, h => absurd h (by simp [Fits])
  | .int _, .none, h => absurd h (by simp [Fits])
  | .int _, .some _, h => absurd h (by simp [Fits])
  | .int _, .obj _, h => absurd h (by simp [Fits])
  | .str, .bool _, h => absurd h (by simp [Fits])
  | .str, .int _, h => absurd h (by simp [Fits])
  | .str, .tup _, h => absurd h (by simp [Fits])
  | .str, .none, h => absurd h (by simp [Fits])
  | .str, .some _, h => absurd h (by simp [Fits])
  | .str, .obj _, h => absurd h (by simp [Fits])
  | .opt _, .bool _, h => absurd h (by simp [Fits])
  | .opt _, .int _, h => absurd h (by simp [Fits])
  | .opt _, .str _, h => absurd h (by simp [Fits])
  | .opt _, .tup _, h => absurd h (by simp [Fits])
  | .opt _, .obj _, h => absurd h (by simp [Fits])
  | .tuple _, .bool _, h => absurd h (by simp [Fits])
  | .tuple _, .int _, h => absurd h (by simp [Fits])
  | .tuple _, .str _, h => absurd h (by simp [Fits])
  | .tuple _, .none, h => absurd h (by simp [Fits])
  | .tuple _, .some _, h => absurd h (by simp [Fits])
  | .tuple _, .obj _, h => absurd h (by simp [Fits])
  | .struct _ _, .bool _, h => absurd h (by simp [Fits])
  | .struct _ _, .int _, h => absurd h (by simp [Fits])
  | .struct _ _, .str _, h => absurd h (by simp [Fits])
  | .struct _ _, .tup _, h => absurd h (by simp [Fits])
  | .struct _ _, .none, h => absurd h (by simp [Fits])
  | .struct _ _, .some _, h => absurd h (by simp [Fits])
theorem docs_vals : ∀ (first : Bool) (ts : Tys) (vs : List Val), FitsAll ts vs → (docs first ts vs).vals ts = some vs
  | first, .nil, [], _ => rfl
  | first, .nil, v :: vs, h => absurd h (by simp [FitsAll])
  | first, .cons t ts, [], h => absurd h (by simp [FitsAll])
  | first, .cons t ts, v :: vs, h => by
    simp only [FitsAll] at h
    have hw : Ws (if first then [] else [32]) = true := by cases first <;> rfl
    simp only [docs, Docs.vals, hw, Ws.nil, Bool.and_self, if_true, doc_val t v h.1, docs_vals false ts vs h.2, Option.bind_some]
theorem mems_vals (all : Fields) (p : Bool) : ∀ (first : Bool) (fs : Fields) (i : Nat) (vs done : List Val), FitsFields fs vs → fs.names.Nodup →
    done.length = i → (∀ key, key ∈ fs.names → all.find 0 key = fs.find i key) → (mems first fs vs).vals all p (done ++ fs.inits) = some (done ++ vs)
  | first, .nil, i, [], done, _, _, _, _ => by simp [mems, Mems.vals, Fields.inits]
  | first, .nil, i, v :: vs, _, h, _, _, _ => absurd h (by simp [FitsFields])
  | first, .cons n t x fs, i, [], _, h, _, _, _ => absurd h (by simp [FitsFields])
  | first, .cons n t x fs, i, v :: vs, done, h, hn, hl, hf => by
    simp only [FitsFields] at h
    simp only [Fields.names, List.nodup_cons] at hn
    have hw : Ws (if first then [] else [32]) = true := by cases first <;> rfl
    have hw2 : Ws [32] = true := rfl
    have hfind : all.find 0 n = some (i, t) := by rw [hf n (by simp [Fields.names]), Fields.find, if_pos rfl]
    have hset : (done ++ x :: fs.inits).set i v = (done ++ [v]) ++ fs.inits := by
      rw [List.set_append_right (h := by omega), hl, Nat.sub_self]
      simp
    have ih := mems_vals all p false fs (i + 1) vs (done ++ [v]) h.2.2 hn.2 (by simp [hl]) (by
      intro key hk
      rw [hf key (by simp [Fields.names, hk]), Fields.find, if_neg (show ¬ n = key from fun e => hn.1 (e ▸ hk))])
    simp only [mems, Mems.vals, hw, hw2, Ws.nil, (okStr_iff n).2 h.1, Bool.and_self, if_true, hfind, doc_val t v h.2.1, Option.bind_some,
      Fields.inits, hset, ih]
    simp
end

/-- **C187 (partial).** A value that is written and read again is the value it was. Missing (see `Fits`): integers beyond `2 ^ 53`, strings with
quotes or with a backslash at their end, optionals of optionals, floating-point numbers, and arrays and slices, which cannot be read. -/
theorem json_roundtrip_partial (frac : List Nat → Int) (t : Ty) (v : Val) (h : Fits t v) : fromString frac t (write t v) = .ok v [] := by
  have := read_doc frac (doc t v) t v [] [] (doc_val t v h) rfl Delim.nil
  rw [List.nil_append, List.append_nil, doc_text t v h] at this
  exact this

/-- What is written. -/
example : write sampleTy (.obj [.int (-42), .tup [.bool true, .some (.str [104, 105])]]) =
    [123, 34, 97, 34, 58, 32, 45, 52, 50, 44, 32, 34, 98, 34, 58, 32, 91, 116, 114, 117, 101, 44, 32, 34, 104, 105, 34, 93, 125] := by
  simp [write, sampleTy, writeFields, writeElems, writeInt, showInt, digits, Json.toJSON]

example : Fits sampleTy (.obj [.int (-42), .tup [.bool true, .some (.str [104, 105])]]) := by
  simp [sampleTy, Fits, FitsFields, FitsAll, Fields.names, IntTy.holds, IntTy.i32, ← okStr_iff, okStr]

theorem toF64_pos (n : Nat) (h : 0 < n) : 0 < toF64 n := by
  unfold toF64
  have h1 : 2 ^ (n.log2 - 52) ≤ n := Nat.le_trans (Nat.pow_le_pow_right (by omega) (Nat.sub_le _ _)) (Nat.log2_self_le (by omega))
  have h2 : 0 < n / 2 ^ (n.log2 - 52) := Nat.div_pos h1 (Nat.pow_pos (by omega))
  refine Nat.mul_pos ?_ (Nat.pow_pos (by omega))
  split <;> omega

/-- **C187 (negated).** An unsigned number from `2 ^ 63` on is written as a negative one, and reading that is undefined. -/
theorem large_unsigned_undefined (frac : List Nat → Int) (v : Int) (h1 : 2 ^ 63 ≤ v) (h2 : v < 2 ^ 64) :
    IntTy.u64.holds v = true ∧ fromString frac (.int .u64) (write (.int .u64) (.int v)) = .ub := by
  refine ⟨by unfold IntTy.holds IntTy.u64; exact decide_eq_true (p := 0 ≤ v ∧ v < 2 ^ 64) ⟨by omega, h2⟩, ?_⟩
  have hb : Int.bmod v (2 ^ 64) = v - 2 ^ 64 := by
    unfold Int.bmod
    have : v % ((2 ^ 64 : Nat) : Int) = v := Int.emod_eq_of_lt (by omega) (by omega)
    simp only [this]
    rw [if_neg (by omega)]
    omega
  rw [write, writeInt, hb, read_number, if_neg]
  have hneg : v - 2 ^ 64 < 0 := by omega
  have := toF64_pos (v - 2 ^ 64).natAbs (by omega)
  simp only [hneg, if_true, IntTy.holds, IntTy.u64, Bool.false_eq_true, if_false, decide_eq_true_eq]
  omega

/-! ## C186: reading ends -/

/-- It ends, and what is left is at least `k` shorter than `n`. -/
def Ends {α : Type} (n k : Nat) (g : G α) : Prop := g ≠ .more ∧ ∀ a r, g = .ok a r → r.length + k ≤ n

theorem Ends.bind {α β : Type} {n k j : Nat} {g : G α} {f : α → List Nat → G β} (h : Ends n k g) (hf : ∀ a r, r.length + k ≤ n → Ends n j (f a r)) :
    Ends n j (g.bind f) := by
  cases g with
  | ok a r => exact hf a r (h.2 a r rfl)
  | raised => exact ⟨by simp [G.bind], by simp [G.bind]⟩
  | ub => exact ⟨by simp [G.bind], by simp [G.bind]⟩
  | more => exact absurd rfl h.1

theorem Ends.ok {α : Type} {n k : Nat} (a : α) (r : List Nat) (h : r.length + k ≤ n) : Ends n k (.ok a r) :=
  ⟨by simp, fun a' r' e => by simp at e; rw [← e.2]; exact h⟩

theorem Ends.raised {α : Type} {n k : Nat} : Ends n k (.raised : G α) := ⟨by simp, by simp⟩
theorem Ends.ub {α : Type} {n k : Nat} : Ends n k (.ub : G α) := ⟨by simp, by simp⟩

theorem Ends.mono {α : Type} {n m k j : Nat} {g : G α} (h : Ends n k g) (hn : n + j ≤ m + k) : Ends m j g :=
  ⟨h.1, fun a r e => by have := h.2 a r e; omega⟩

theorem dropWhile_le (p : Nat → Bool) (s : List Nat) : (s.dropWhile p).length ≤ s.length := (List.dropWhile_suffix p).length_le

theorem skipWs_le (s : List Nat) : (skipWs s).length ≤ s.length := dropWhile_le _ s

theorem consume_le (c : Nat) (s : List Nat) : (consumeChar c s).2.length ≤ s.length ∧ ((consumeChar c s).1 = true → (consumeChar c s).2.length + 1 ≤ s.length) := by
  have h := skipWs_le s
  unfold consumeChar
  cases e : skipWs s with
  | nil => simp
  | cons x r =>
    rw [e] at h
    simp only [List.length_cons] at h
    by_cases hx : x = c
    · simp only [hx, if_true]; omega
    · simp only [hx, if_false, List.length_cons, Bool.false_eq_true, false_implies, and_true]; omega

theorem expectChar_ends (c : Nat) (s : List Nat) : Ends s.length 1 (expectChar c s) := by
  have h := skipWs_le s
  unfold expectChar
  cases e : skipWs s with
  | nil => exact Ends.raised
  | cons x r =>
    rw [e] at h
    simp only [List.length_cons] at h
    by_cases hx : x = c
    · simp only [hx, if_true]; exact Ends.ok _ _ h
    · simp only [hx, if_false]; exact Ends.raised

theorem scanStr_le : ∀ s : List Nat, (scanStr s).2.length ≤ s.length
  | [] => by simp [scanStr]
  | [c] => by simp only [scanStr]; split <;> simp
  | c :: n :: r => by
    have h1 := scanStr_le r
    have h2 := scanStr_le (n :: r)
    simp only [List.length_cons] at h2
    simp only [scanStr]
    repeat' split
    all_goals simp only [List.length_cons]
    all_goals omega

theorem expectString_ends (s : List Nat) : Ends s.length 2 (expectString s) := by
  have h := skipWs_le s
  unfold expectString
  split
  · rename_i r e
    rw [e] at h
    have h2 := scanStr_le r
    split
    · rename_i t e2
      rw [e2] at h2
      simp only [List.length_cons] at h h2
      exact Ends.ok _ _ (by omega)
    · exact Ends.raised
  · exact Ends.raised

theorem expectBool_ends (s : List Nat) : Ends s.length 0 (expectBool s) := by
  have h := skipWs_le s
  have h2 := dropWhile_le isAlpha (skipWs s)
  unfold expectBool
  simp only []
  repeat' split
  · exact Ends.ok _ _ (by omega)
  · exact Ends.ok _ _ (by omega)
  · exact Ends.raised

theorem matchNull_le (s : List Nat) : (matchNull s).2.length ≤ s.length := by
  have h := skipWs_le s
  unfold matchNull
  split
  · rename_i e
    rw [e] at h
    simp only [List.length_cons] at h
    simp only []
    omega
  · exact h

theorem tail_le (s : List Nat) : s.tail.length ≤ s.length := by simp

theorem afterNumber_le (s : List Nat) : (afterNumber s).length ≤ s.length := by
  have h1 : (afterSign s).length ≤ s.length := by unfold afterSign; split; exact tail_le s; exact Nat.le_refl _
  have h2 := dropWhile_le isDigit (afterSign s)
  have h3 : ∀ u, (afterFraction u).length ≤ u.length := by
    intro u
    unfold afterFraction
    split
    · exact Nat.le_trans (dropWhile_le _ _) (tail_le u)
    · exact Nat.le_refl _
  have h4 : ∀ u, (afterExponent u).length ≤ u.length := by
    intro u
    unfold afterExponent
    split
    · simp only []
      have a := (consume_le 45 u.tail).1
      have b := (consume_le 43 (consumeChar 45 u.tail).2).1
      have c := tail_le u
      split
      · have := dropWhile_le isDigit (consumeChar 45 u.tail).2; omega
      · have := dropWhile_le isDigit (consumeChar 43 (consumeChar 45 u.tail).2).2; omega
    · exact Nat.le_refl _
  have a := h3 ((afterSign s).dropWhile isDigit)
  have b := h4 (afterFraction ((afterSign s).dropWhile isDigit))
  unfold afterNumber
  omega

theorem expectNumber_ends (s : List Nat) : Ends s.length 0 (expectNumber s) := by
  have h := skipWs_le s
  have h2 := afterNumber_le (skipWs s)
  unfold expectNumber
  simp only []
  split
  · exact Ends.raised
  · split
    · exact Ends.raised
    · exact Ends.ok _ _ (by omega)

mutual
theorem skipValue_ends : ∀ (f : Nat) (s : List Nat), 2 * s.length < f → Ends s.length 0 (skipValue f s)
  | 0, s, h => by omega
  | f + 1, s, h => by
    have hw := skipWs_le s
    have ht := tail_le (skipWs s)
    have hwt := skipWs_le (skipWs s).tail
    rw [skipValue]
    by_cases h1 : (skipWs s).headD 0 = 34
    · rw [if_pos h1]
      exact ((expectString_ends _).mono (j := 0) (m := s.length) (by omega)).bind fun _ r hr => Ends.ok _ _ (by omega)
    rw [if_neg h1]
    by_cases h2 : (skipWs s).headD 0 = 116 ∨ (skipWs s).headD 0 = 102
    · rw [if_pos h2]
      exact ((expectBool_ends _).mono (j := 0) (m := s.length) (by omega)).bind fun _ r hr => Ends.ok _ _ (by omega)
    rw [if_neg h2]
    by_cases h3 : (skipWs s).headD 0 = 110
    · rw [if_pos h3]
      exact Ends.ok _ _ (by have := matchNull_le (skipWs s); omega)
    rw [if_neg h3]
    by_cases h4 : isDigit ((skipWs s).headD 0) = true
    · rw [if_pos h4]
      exact ((expectNumber_ends _).mono (j := 0) (m := s.length) (by omega)).bind fun _ r hr => Ends.ok _ _ (by omega)
    rw [if_neg h4]
    by_cases h5 : (skipWs s).headD 0 = 123
    · rw [if_pos h5]
      have hne : (skipWs s).tail.length + 1 = (skipWs s).length := by
        cases e : skipWs s with
        | nil => rw [e] at h5; simp at h5
        | cons x r => simp
      exact (skipMembers_ends f _ (by omega)).mono (by omega)
    rw [if_neg h5]
    by_cases h6 : (skipWs s).headD 0 = 91
    · rw [if_pos h6]
      have hne : (skipWs s).tail.length + 1 = (skipWs s).length := by
        cases e : skipWs s with
        | nil => rw [e] at h6; simp at h6
        | cons x r => simp
      exact (skipElems_ends f _ (by omega)).mono (by omega)
    rw [if_neg h6]
    exact Ends.ok _ _ (by omega)
theorem skipMembers_ends : ∀ (f : Nat) (s : List Nat), 2 * s.length < f → Ends s.length 0 (skipMembers f s)
  | 0, s, h => by omega
  | f + 1, s, h => by
    rw [skipMembers]
    by_cases h1 : s.headD 0 = 125
    · rw [if_pos h1]
      exact (expectChar_ends 125 s).mono (by omega)
    · rw [if_neg h1]
      refine (expectString_ends s).bind fun _ r hr => ?_
      have hw := skipWs_le r
      refine ((expectChar_ends 58 (skipWs r)).mono (j := 3) (m := s.length) (by omega)).bind fun _ r2 hr2 => ?_
      refine ((skipValue_ends f r2 (by omega)).mono (j := 3) (m := s.length) (by omega)).bind fun _ r3 hr3 => ?_
      simp only []
      have hw3 := skipWs_le r3
      have hc := consume_le 44 (skipWs r3)
      have hw4 := skipWs_le (consumeChar 44 (skipWs r3)).2
      split
      · rename_i hc1
        have := hc.2 hc1
        exact (skipMembers_ends f _ (by omega)).mono (by omega)
      · exact (expectChar_ends 125 _).mono (by omega)
theorem skipElems_ends : ∀ (f : Nat) (s : List Nat), 2 * s.length + 1 < f → Ends s.length 0 (skipElems f s)
  | 0, s, h => by omega
  | f + 1, s, h => by
    rw [skipElems]
    by_cases h1 : s.headD 0 = 93
    · rw [if_pos h1]
      exact (expectChar_ends 93 s).mono (by omega)
    · rw [if_neg h1]
      refine (skipValue_ends f s (by omega)).bind fun _ r3 hr3 => ?_
      simp only []
      have hw3 := skipWs_le r3
      have hc := consume_le 44 (skipWs r3)
      have hw4 := skipWs_le (consumeChar 44 (skipWs r3)).2
      split
      · rename_i hc1
        have := hc.2 hc1
        exact (skipElems_ends f _ (by omega)).mono (by omega)
      · exact (expectChar_ends 93 _).mono (by omega)
end

theorem members_ends (field : List Nat → List Val → List Nat → G (List Val)) (hf : ∀ key obj s, Ends s.length 0 (field key obj s)) :
    ∀ (f : Nat) (obj : List Val) (s : List Nat), s.length < f → Ends s.length 0 (members field f obj s)
  | 0, obj, s, h => by omega
  | f + 1, obj, s, h => by
    have hw := skipWs_le s
    rw [members]
    split
    · exact Ends.ok _ _ (by omega)
    · refine ((expectString_ends (skipWs s)).mono (j := 2) (m := s.length) (by omega)).bind fun key r hr => ?_
      refine ((expectChar_ends 58 r).mono (j := 3) (m := s.length) (by omega)).bind fun _ r hr => ?_
      refine ((hf key obj r).mono (j := 3) (m := s.length) (by omega)).bind fun obj' r hr => ?_
      have hc := (consume_le 44 r).1
      exact (members_ends field hf f obj' _ (by omega)).mono (by omega)

mutual
theorem parse_ends (frac : List Nat → Int) : ∀ (t : Ty) (s : List Nat), Ends s.length 0 (parse frac t s)
  | .bool, s => by
    rw [parse]
    exact (expectBool_ends s).bind fun _ r hr => Ends.ok _ _ hr
  | .int k, s => by
    rw [parse, expectInteger]
    refine Ends.bind (k := 0) ((expectNumber_ends s).bind fun _ r hr => ?_) fun _ r hr => Ends.ok _ _ hr
    split
    · exact Ends.ok _ _ hr
    · exact Ends.ub
  | .str, s => by
    rw [parse]
    exact (expectString_ends s).bind fun _ r hr => Ends.ok _ _ (by omega)
  | .tuple ts, s => by
    rw [parse]
    refine (expectChar_ends 91 s).bind fun _ r hr => ?_
    refine ((parseElems_ends frac true ts r).mono (j := 0) (m := s.length) (by omega)).bind fun vs r hr => ?_
    exact ((expectChar_ends 93 r).mono (j := 0) (m := s.length) (by omega)).bind fun _ r hr => Ends.ok _ _ hr
  | .opt t, s => by
    rw [parse]
    have hm := matchNull_le s
    split
    · exact Ends.ok _ _ (by omega)
    · exact ((parse_ends frac t (matchNull s).2).mono (j := 0) (m := s.length) (by omega)).bind fun _ r hr => Ends.ok _ _ hr
  | .struct fs p, s => by
    rw [parse]
    refine (expectChar_ends 123 s).bind fun _ r hr => ?_
    refine ((members_ends _ (fun key obj r => parseField_ends frac fs p 0 key obj r) (r.length + 1) fs.inits r (by omega)).mono (j := 0) (m := s.length)
      (by omega)).bind fun vs r hr => ?_
    exact ((expectChar_ends 125 r).mono (j := 0) (m := s.length) (by omega)).bind fun _ r hr => Ends.ok _ _ hr
theorem parseElems_ends (frac : List Nat → Int) : ∀ (first : Bool) (ts : Tys) (s : List Nat), Ends s.length 0 (parseElems frac first ts s)
  | first, .nil, s => Ends.ok _ _ (Nat.le_refl _)
  | first, .cons t ts, s => by
    rw [parseElems]
    refine Ends.bind (k := 0) ?_ fun _ r hr => ?_
    · cases first
      · exact (expectChar_ends 44 s).mono (by omega)
      · exact Ends.ok _ _ (by omega)
    · refine ((parse_ends frac t r).mono (j := 0) (m := s.length) (by omega)).bind fun v r hr => ?_
      exact ((parseElems_ends frac false ts r).mono (j := 0) (m := s.length) (by omega)).bind fun vs r hr => Ends.ok _ _ hr
theorem parseField_ends (frac : List Nat → Int) : ∀ (fs : Fields) (p : Bool) (i : Nat) (key : List Nat) (obj : List Val) (s : List Nat),
    Ends s.length 0 (parseField frac fs p i key obj s)
  | .nil, p, i, key, obj, s => by
    rw [parseField]
    split
    · exact (skipValue_ends _ s (by omega)).bind fun _ r hr => Ends.ok _ _ hr
    · exact Ends.raised
  | .cons n t v fs, p, i, key, obj, s => by
    rw [parseField]
    split
    · exact (parse_ends frac t s).bind fun v r hr => Ends.ok _ _ hr
    · exact parseField_ends frac fs p (i + 1) key obj s
end

/-- **C186.** Reading ends for every type and every text, whatever its contents and its nesting. -/
theorem reading_ends (frac : List Nat → Int) (t : Ty) (s : List Nat) : fromString frac t s ≠ .more := (parse_ends frac t s).1

/-- `[[[[` for a structure that skips what it does not know. -/
example : fromString (fun _ => 0) (.struct .nil true) [123, 34, 120, 34, 58, 91, 91, 91, 91] = .raised := by rfl

/-- **C187 (negated).** An optional that holds an empty optional is read back as an empty one. -/
theorem nested_optional_lost (frac : List Nat → Int) (t : Ty) :
    fromString frac (.opt (.opt t)) (write (.opt (.opt t)) (.some .none)) = .ok .none [] := by rfl

end Verif.JsonVal
