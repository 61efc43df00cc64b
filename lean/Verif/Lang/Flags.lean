import Verif.Common.Res
/-!
# Rendering a set of flags (`src/cxy/lang/frontend/operator.c` 176-220, `flag.h` 16-80)

The text appended to the format state is the list of its pieces.
-/
namespace Verif.Flags

/-- flag.h 16-80, in the order of the bits. -/
def names : List String :=
  ["Native", "Builtin", "Public", "Private", "Async", "TypeAst", "Main", "Variadic", "Const", "Default",
   "Deferred", "Capture", "Closure", "MacroArgument", "ClosureStyle", "FuncTypeParam", "Member", "AddThis",
   "OutParam", "Typeinfo", "ForwardDecl", "Reference", "TopLevelDecl", "Generated", "Executable",
   "BitUnionCast", "EnumLiteral", "Comptime", "Visited", "ImplementsDeinit", "Temporary", "Unsafe",
   "FunctionPtr", "Returned", "ComptimeIterable", "Define", "UnsafeCast", "Extern", "Inherited", "BlockReturns",
   "BuiltinsModule", "Optional", "ImportedModule", "ReferenceMembers", "Pure", "Slice", "Transient", "Static",
   "SyncCall", "VTable", "Substituted", "Virtual", "Abstract", "ModuleInit", "Move", "Scoping", "BlockValue",
   "DiDisable", "Forced", "Anonymous", "Constructor", "TestContext", "Annotation", "UnionCast"]

/-- operator.c 176-189 `appendFlagName` -/
def flagName (i : Nat) : String := names[i]?.getD ("flg_" ++ toString i)

/-- operator.c 191-204: the loop `while (flags >> index)`.  A shift by 64 is undefined.  65 rounds are enough. -/
def appendLoop (flags : Nat) : Nat → Nat → Bool → List String → Res (List String)
  | 0, _, _, _ => .diverge
  | f + 1, index, first, out =>
    if 64 ≤ index then .ub
    else if flags >>> index = 0 then .ok out
    else if flags.testBit index then
      appendLoop flags f (index + 1) false ((if first then out else out ++ ["|"]) ++ [flagName index])
    else appendLoop flags f (index + 1) first out

/-- operator.c 191 `appendFlagsAsString` -/
def appendFlags (flags : Nat) : Res (List String) := appendLoop flags 65 0 true []

/-- The set bits from `i` up, below `i + n`. -/
def setBits (flags : Nat) (i n : Nat) : List Nat := (List.range' i n).filter fun b => flags.testBit b

/-- Put `|` between names. -/
def sep : List String → List String
  | [] => []
  | [a] => [a]
  | a :: rest => a :: "|" :: sep rest

theorem sep_snoc (l : List String) (a : String) : sep (l ++ [a]) = (if l = [] then [] else sep l ++ ["|"]) ++ [a] := by
  induction l with
  | nil => rfl
  | cons x l ih =>
    cases l with
    | nil => rfl
    | cons y l =>
      simp only [List.cons_append, sep] at ih ⊢
      rw [ih]
      simp

theorem setBits_succ (flags n : Nat) : setBits flags 0 (n + 1) = setBits flags 0 n ++ (if flags.testBit n then [n] else []) := by
  unfold setBits
  rw [show List.range' 0 (n + 1) = List.range' 0 n ++ [n] by simp [List.range'_concat], List.filter_append]
  congr 1
  by_cases h : flags.testBit n = true <;> simp [h]

theorem setBits_rest (flags i : Nat) (h : flags >>> i = 0) : ∀ n, setBits flags 0 (i + n) = setBits flags 0 i
  | 0 => rfl
  | n + 1 => by
    have hb : flags.testBit (i + n) = false := by
      rw [← Nat.testBit_shiftRight, h, Nat.zero_testBit]
    rw [← Nat.add_assoc, setBits_succ, setBits_rest flags i h n, hb]
    simp

theorem loop_spec (flags : Nat) (hf : flags < 2 ^ 63) : ∀ (n index fuel : Nat), index + n = 63 → n < fuel →
    appendLoop flags fuel index ((setBits flags 0 index).isEmpty) (sep ((setBits flags 0 index).map flagName)) =
      .ok (sep ((setBits flags 0 64).map flagName))
  | n, index, fuel + 1, h, hfu => by
    rw [appendLoop, if_neg (by omega)]
    by_cases hz : flags >>> index = 0
    · rw [if_pos hz, show 64 = index + (64 - index) by omega, setBits_rest flags index hz]
    · rw [if_neg hz]
      cases n with
      | zero =>
        exfalso
        apply hz
        rw [show index = 63 by omega, Nat.shiftRight_eq_div_pow]
        exact Nat.div_eq_of_lt hf
      | succ n =>
        have hs := setBits_succ flags index
        have ih := loop_spec flags hf n (index + 1) fuel (by omega) (by omega)
        rw [hs] at ih
        by_cases hb : flags.testBit index = true
        · rw [if_pos hb] at ih ⊢
          rw [← ih, List.map_append, List.map_singleton, sep_snoc]
          congr 1
          · simp
          · congr 1
            cases setBits flags 0 index <;> rfl
        · rw [if_neg hb] at ih ⊢
          rw [List.append_nil] at ih
          exact ih

theorem loop_ub (flags : Nat) (h : flags.testBit 63 = true) : ∀ (n index fuel : Nat) (first : Bool) (out : List String),
    index + n = 64 → n < fuel → appendLoop flags fuel index first out = .ub
  | 0, index, fuel + 1, first, out, hi, _ => by rw [appendLoop, if_pos (by omega)]
  | n + 1, index, fuel + 1, first, out, hi, hf => by
    rw [appendLoop, if_neg (by omega), if_neg (by
      intro hz
      have : flags.testBit 63 = false := by
        rw [show 63 = index + (63 - index) by omega, ← Nat.testBit_shiftRight, hz, Nat.zero_testBit]
      rw [this] at h; cases h)]
    by_cases hb : flags.testBit index = true
    · rw [if_pos hb]; exact loop_ub flags h n (index + 1) fuel _ _ (by omega) (by omega)
    · rw [if_neg hb]; exact loop_ub flags h n (index + 1) fuel _ _ (by omega) (by omega)

/-- The flags of the language and their bit numbers, by name. -/
def bitOf : List (String × Nat) :=
  [("Abstract", 52), ("AddThis", 17), ("Annotation", 62), ("Anonymous", 59), ("Async", 4), ("BitUnionCast", 25),
   ("BlockReturns", 39), ("BlockValue", 56), ("Builtin", 1), ("BuiltinsModule", 40), ("Capture", 11),
   ("Closure", 12), ("ClosureStyle", 14), ("Comptime", 27), ("ComptimeIterable", 34), ("Const", 8),
   ("Constructor", 60), ("Default", 9), ("Deferred", 10), ("Define", 35), ("DiDisable", 57), ("EnumLiteral", 26),
   ("Executable", 24), ("Extern", 37), ("Forced", 58), ("ForwardDecl", 20), ("FuncTypeParam", 15),
   ("FunctionPtr", 32), ("Generated", 23), ("ImplementsDeinit", 29), ("ImportedModule", 42), ("Inherited", 38),
   ("MacroArgument", 13), ("Main", 6), ("Member", 16), ("ModuleInit", 53), ("Move", 54), ("Native", 0),
   ("Optional", 41), ("OutParam", 18), ("Private", 3), ("Public", 2), ("Pure", 44), ("Reference", 21),
   ("ReferenceMembers", 43), ("Returned", 33), ("Scoping", 55), ("Slice", 45), ("Static", 47), ("Substituted", 50),
   ("SyncCall", 48), ("Temporary", 30), ("TestContext", 61), ("TopLevelDecl", 22), ("Transient", 46), ("TypeAst", 5),
   ("Typeinfo", 19), ("UnionCast", 63), ("Unsafe", 31), ("UnsafeCast", 36), ("VTable", 49), ("Variadic", 7),
   ("Virtual", 51), ("Visited", 28)]

theorem bitOf_names : ∀ q ∈ bitOf, names[q.2]? = some q.1 := by decide +kernel

/-- Every bit has a name. -/
theorem bitOf_all : ∀ i, i < 64 → ∃ n, (n, i) ∈ bitOf := by
  have h : ∀ i : Fin 64, bitOf.any (fun q => q.2 == i.val) = true := by decide +kernel
  intro i hi
  have := h ⟨i, hi⟩
  rw [List.any_eq_true] at this
  obtain ⟨⟨n, j⟩, hq, hj⟩ := this
  simp only [beq_iff_eq] at hj
  subst hj
  exact ⟨n, hq⟩

theorem names_nodup : names.Nodup := by decide +kernel

/-- **C49 (partial).** Rendering any flag set without flag 63 lists, separated by `|`, exactly the names of the flags in it,
each once and in the order of the flags.  Missing: sets with flag 63 (`union_cast_undefined`). -/
theorem flags_listed_partial (flags : Nat) (h : flags < 2 ^ 63) : ∃ ns : List String,
    appendFlags flags = .ok (sep ns) ∧ ns.Nodup ∧ (∀ n ∈ ns, ∃ i, (n, i) ∈ bitOf) ∧
    (∀ n i, (n, i) ∈ bitOf → (n ∈ ns ↔ flags.testBit i = true)) ∧
    (∀ m i n j, (m, i) ∈ bitOf → (n, j) ∈ bitOf → [m, n].Sublist ns → i < j) := by
  have hlen : names.length = 64 := by decide
  have hname : ∀ i (hi : i < names.length), flagName i = names[i] := by
    intro i hi; simp [flagName, List.getElem?_eq_getElem hi]
  have hlook : ∀ n i, (n, i) ∈ bitOf → i < 64 ∧ flagName i = n := by
    intro n i hq
    have := bitOf_names _ hq
    obtain ⟨hi, he⟩ := List.getElem?_eq_some_iff.1 this
    exact ⟨by simp only at hi; omega, by rw [hname i hi]; exact he⟩
  have hinj : ∀ i j, i < 64 → j < 64 → flagName i = flagName j → i = j := by
    intro i j hi hj he
    rw [hname i (by omega), hname j (by omega)] at he
    exact (List.getElem_inj names_nodup).mp he
  have hpw : (setBits flags 0 64).Pairwise (· < ·) := List.Pairwise.filter _ List.pairwise_lt_range'
  have hlt : ∀ i ∈ setBits flags 0 64, i < 64 := by
    intro i hi
    simp only [setBits, List.mem_filter, List.mem_range'_1] at hi
    omega
  refine ⟨(setBits flags 0 64).map flagName, loop_spec flags h 63 0 65 (by omega) (by omega), ?_, ?_, ?_, ?_⟩
  · rw [List.nodup_iff_pairwise_ne, List.pairwise_map]
    refine List.Pairwise.imp_of_mem ?_ hpw
    intro i j hi hj hij he
    have := hinj i j (hlt i hi) (hlt j hj) he
    omega
  · intro n hn
    obtain ⟨i, hi, rfl⟩ := List.mem_map.1 hn
    obtain ⟨n, hq⟩ := bitOf_all i (hlt i hi)
    rw [(hlook n i hq).2]
    exact ⟨i, hq⟩
  · intro n i hq
    obtain ⟨hi, rfl⟩ := hlook n i hq
    rw [List.mem_map]
    constructor
    · rintro ⟨j, hj, e⟩
      have := hinj j i (hlt j hj) hi e
      subst this
      exact (List.mem_filter.1 hj).2
    · intro hb
      refine ⟨i, ?_, rfl⟩
      simp only [setBits, List.mem_filter, List.mem_range'_1]
      exact ⟨⟨by omega, by omega⟩, hb⟩
  · intro m i n j hm hn hs
    obtain ⟨hi, rfl⟩ := hlook m i hm
    obtain ⟨hj, rfl⟩ := hlook n j hn
    obtain ⟨l, hl, he⟩ := List.sublist_map_iff.1 hs
    match l, he with
    | [], he => simp at he
    | [a], he => simp at he
    | _ :: _ :: _ :: _, he => simp at he
    | [a, b], he =>
      simp only [List.map_cons, List.map_nil, List.cons.injEq, and_true] at he
      have hp := hpw.sublist hl
      have ha := hinj i a hi (hlt a (hl.subset (by simp))) he.1
      have hb := hinj j b hj (hlt b (hl.subset (by simp))) he.2
      subst ha hb
      simpa using hp

/-- **C49 fails** for every set with flag 63 (`UnionCast`): the loop shifts a 64-bit value by 64. -/
theorem union_cast_undefined (flags : Nat) (h : flags.testBit 63 = true) : appendFlags flags = .ub :=
  loop_ub flags h 64 0 65 true [] (by omega) (by omega)

example : appendFlags 0b100000101 = .ok ["Native", "|", "Public", "|", "Const"] := by decide

end Verif.Flags
