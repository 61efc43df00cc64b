import Verif.Lang.TypeQ.Model
namespace Verif.TypeQ

/-! ## C238: a question about a type is answered for the type, however it is named -/

/-- The types the compiler makes: `const` is put on a type after its aliases and another `const` are removed (ttable.c 1028), and
`this` is a class or a struct. -/
def Made : Ty → Prop
  | .base _ => True
  | .alias t => Made t
  | .info t => Made t
  | .this (.base (.struct _ _ _ _)) => True
  | .this (.base (.class _)) => True
  | .this _ => False
  | .const (.base _) => True
  | .const (.this t) => Made (.this t)
  | .const _ => False

/-- The type that is meant. -/
def meant : Ty → Base
  | .base b => b
  | .alias t => meant t
  | .info t => meant t
  | .this t => meant t
  | .const t => meant t

/-- What the manual (docs/comptime.md 277-308) says of each question. -/
def documented : Q → Base → Bool
  | .integer, .prim (.int _ _) => true
  | .signed, .prim (.int s _) => s
  | .unsigned, .prim (.int s _) => !s
  | .float, .prim (.float _) => true
  | .number, .prim (.int _ _) => true
  | .number, .prim (.float _) => true
  | .boolean, .prim .bool => true
  | .char, .prim .char => true
  | .char, .prim .wchar => true
  | .array, .array => true
  | .slice, .struct s _ _ _ => s
  | .pointer, .pointer => true
  | .reference, .reference => true
  | .optional, .struct _ o _ _ => o
  | .struct, .struct _ _ _ _ => true
  | .class, .class _ => true
  | .tuple, .tuple _ => true
  | .union, .union _ => true
  | .enum, .enum => true
  | .string, .string => true
  | .string, .struct _ _ b _ => b
  | .void, .void => true
  | .function, .func => true
  | .function, .tuple p => p
  | .closure, .class c => c
  | .funcTypeParam, .tuple p => p
  | .anonymous, .struct _ _ _ a => a
  | .result, .union r => r
  | _, _ => false

/-- The layers of a type: whether it is named by an alias, whether it is `const`, whether it is the type of `this`. -/
def aliased : Ty → Bool
  | .alias _ => true
  | .info _ => true
  | _ => false
def isConst : Ty → Bool
  | .alias t => isConst t
  | .info t => isConst t
  | .const _ => true
  | _ => false
def isThis : Ty → Bool
  | .alias t => isThis t
  | .info t => isThis t
  | .const t => isThis t
  | .this _ => true
  | .base _ => false

/-- What a question takes for its kind of type, apart from layers. -/
def taken : Q → Base → Bool
  | .signed, .prim (.float _) => true
  | .number, .prim .char => true
  | .number, .prim .wchar => true
  | .number, .enum => true
  | .closure, .class _ => true
  | q, b => documented q b

/-- The layers a question sees through. -/
def seen : Q → Ty → Bool
  | .pointer, t => !isConst t
  | .reference, t => !isConst t
  | .slice, t => !isConst t && !isThis t
  | .enum, t => !isConst t && !aliased t
  | .string, t => !(aliased t && isConst t) && !isThis t
  | .function, t => !(aliased t && isConst t)
  | .optional, t => !(aliased t && isConst t)
  | .class, t => !(aliased t && isConst t)
  | .struct, t => !(isConst t && isThis t)
  | _, _ => true

/-- The layers below the aliases. -/
def below (c h : Bool) (b : Base) : Ty :=
  let t := if h then Ty.this (.base b) else .base b
  if c then .const t else t

theorem made_this {t : Ty} (h : Made (.this t)) : ∃ b, t = .base b ∧ ((∃ x y z w, b = .struct x y z w) ∨ ∃ c, b = .class c) := by
  cases t with
  | base b =>
    refine ⟨b, rfl, ?_⟩
    cases b with
    | struct x y z w => exact .inl ⟨x, y, z, w, rfl⟩
    | «class» c => exact .inr ⟨c, rfl⟩
    | _ => simp [Made] at h
  | _ => simp [Made] at h

theorem resolve_eq : ∀ t : Ty, Made t → resolve t = below (isConst t) (isThis t) (meant t)
  | .base b, _ => rfl
  | .alias t, h => by simp only [resolve, isConst, isThis, meant]; exact resolve_eq t h
  | .info t, h => by simp only [resolve, isConst, isThis, meant]; exact resolve_eq t h
  | .this t, h => by
    obtain ⟨b, rfl, _⟩ := made_this h
    rfl
  | .const t, h => by
    cases t with
    | base b => rfl
    | this t =>
      obtain ⟨b, rfl, _⟩ := made_this (by simpa [Made] using h)
      rfl
    | _ => simp [Made] at h

theorem resolveThis_eq : ∀ t : Ty, Made t → resolveThis t = if isConst t then below true (isThis t) (meant t) else .base (meant t)
  | .base b, _ => rfl
  | .alias t, h => by simp only [resolveThis, isConst, isThis, meant]; exact resolveThis_eq t h
  | .info t, h => by simp only [resolveThis, isConst, isThis, meant]; exact resolveThis_eq t h
  | .this t, h => by
    obtain ⟨b, rfl, _⟩ := made_this h
    rfl
  | .const t, h => by
    cases t with
    | base b => rfl
    | this t =>
      obtain ⟨b, rfl, _⟩ := made_this (by simpa [Made] using h)
      rfl
    | _ => simp [Made] at h

theorem resolveAll_eq : ∀ t : Ty, resolveAll t = .base (meant t)
  | .base b => rfl
  | .alias t => by rw [resolveAll, meant]; exact resolveAll_eq t
  | .info t => by rw [resolveAll, meant]; exact resolveAll_eq t
  | .this t => by rw [resolveAll, meant]; exact resolveAll_eq t
  | .const t => by rw [resolveAll, meant]; exact resolveAll_eq t

theorem unwrap_eq (t : Ty) (h : Made t) : unwrap t = if aliased t then t else below false (isThis t) (meant t) := by
  cases t with
  | base b => rfl
  | alias t => rfl
  | info t => rfl
  | this t =>
    obtain ⟨b, rfl, _⟩ := made_this h
    rfl
  | const t =>
    cases t with
    | base b => rfl
    | this t =>
      obtain ⟨b, rfl, _⟩ := made_this (by simpa [Made] using h)
      rfl
    | _ => simp [Made] at h

theorem resolveUnwrap_below (c h : Bool) (b : Base) :
    resolveUnwrap (below c h b) = if h then .this (.base b) else .base b := by
  cases c <;> cases h <;> rfl

theorem isThis_base : ∀ t : Ty, Made t → isThis t = true → (∃ x y z w, meant t = .struct x y z w) ∨ ∃ c, meant t = .class c
  | .base b, _, h => by simp [isThis] at h
  | .alias t, hm, h => isThis_base t hm h
  | .info t, hm, h => isThis_base t hm h
  | .this t, hm, _ => by
    obtain ⟨b, rfl, hb⟩ := made_this hm
    exact hb
  | .const t, hm, h => by
    cases t with
    | base b => simp [isThis] at h
    | this t =>
      obtain ⟨b, rfl, hb⟩ := made_this (by simpa [Made] using hm)
      exact hb
    | _ => simp [Made] at hm

theorem not_aliased_const (t : Ty) (h : Made t) (ha : aliased t = false) : unwrap t = below false (isThis t) (meant t) := by
  rw [unwrap_eq t h, ha]; rfl

theorem testEnum_eq (t : Ty) (h : Made t) : testEnum t = (taken .enum (meant t) && seen .enum t) := by
  cases t with
  | base b => cases b <;> rfl
  | alias t => simp [testEnum, seen, aliased]
  | info t => simp [testEnum, seen, aliased]
  | this t =>
    obtain ⟨b, rfl, hb⟩ := made_this h
    rcases hb with ⟨x, y, z, w, rfl⟩ | ⟨c, rfl⟩ <;> rfl
  | const t => simp [testEnum, seen, isConst]

set_option linter.unusedSimpArgs false in
/-- C238: the answer to every question about every type: yes exactly if the type meant is of the kind the question takes and the
question sees through the layers around it. -/
theorem answer_eq (q : Q) (t : Ty) (h : Made t) : answer q t = (taken q (meant t) && seen q t) := by
  have h1 := resolve_eq t h
  have h2 := resolveThis_eq t h
  have h3 := resolveAll_eq t
  have hru : resolve (unwrap t) = if aliased t then below (isConst t) (isThis t) (meant t) else below false (isThis t) (meant t) := by
    rw [unwrap_eq t h]
    cases ha : aliased t
    · cases isThis t <;> rfl
    · simpa using h1
  have hrtu : resolveThis (unwrap t) = if aliased t && isConst t then below true (isThis t) (meant t) else .base (meant t) := by
    rw [unwrap_eq t h]
    cases ha : aliased t
    · cases isThis t <;> rfl
    · simpa using h2
  have hthis := isThis_base t h
  by_cases hq : q = .enum
  · subst hq; exact testEnum_eq t h
  cases q <;> first | exact absurd rfl hq | skip
  all_goals simp only [answer, h1, h2, h3, hru, hrtu, resolveUnwrap_below, seen] <;>
    generalize meant t = b at hthis ⊢ <;> generalize isConst t = c <;> generalize isThis t = th at hthis ⊢ <;>
    generalize aliased t = a <;> cases th <;> cases c <;> (try cases a)
  all_goals
    first
    | (simp only [forall_const] at hthis
       rcases hthis with ⟨x, y, z, w, rfl⟩ | ⟨c, rfl⟩ <;> (first | rfl | simp [below, unwrap, testString, testChar, testArray, testSlice,
         testBoolean, testNumeric, testInteger, testSigned, testUnsigned, testFloat, testOptional, testPointer, testReference,
         testStruct, testClass, testTuple, testUnion, testVoid, testFunction, testClosure, testFuncTypeParam, testAnonymous, testResult,
         taken, documented]))
    | (clear hthis
       cases b with
       | prim p => cases p <;> (first | rfl | simp [below, unwrap, testString, testChar, testArray, testSlice,
         testBoolean, testNumeric, testInteger, testSigned, testUnsigned, testFloat, testOptional, testPointer, testReference,
         testStruct, testClass, testTuple, testUnion, testVoid, testFunction, testClosure, testFuncTypeParam, testAnonymous, testResult,
         taken, documented])
       | _ => (first | rfl | simp [below, unwrap, testString, testChar, testArray, testSlice,
         testBoolean, testNumeric, testInteger, testSigned, testUnsigned, testFloat, testOptional, testPointer, testReference,
         testStruct, testClass, testTuple, testUnion, testVoid, testFunction, testClosure, testFuncTypeParam, testAnonymous, testResult,
         taken, documented]))
    | skip

/-- C238, part that holds: these questions are answered as documented for every type, under any alias, `const` and as `this`. -/
theorem documented_partial (q : Q) (t : Ty) (h : Made t)
    (hq : q ∈ [Q.integer, .unsigned, .float, .boolean, .char, .array, .tuple, .union, .void, .funcTypeParam, .anonymous, .result]) :
    answer q t = documented q (meant t) := by
  rw [answer_eq q t h]
  simp only [List.mem_cons, List.not_mem_nil, or_false] at hq
  rcases hq with rfl | rfl | rfl | rfl | rfl | rfl | rfl | rfl | rfl | rfl | rfl | rfl <;> simp [seen, taken]

/-- C238, part that holds: for a type that is neither named by an alias nor `const` nor `this`, these are answered as documented too. -/
theorem documented_plain_partial (q : Q) (b : Base)
    (hq : q ∉ [Q.signed, .number, .closure]) : answer q (.base b) = documented q b := by
  rw [answer_eq q (.base b) trivial]
  simp only [List.mem_cons, List.not_mem_nil, or_false, not_or] at hq
  cases q <;> simp_all [seen, taken, meant, isConst, isThis, aliased]

/-- C238, part that holds: but for the three questions that take other types as well, the answer yes is right. -/
theorem yes_is_right_partial (q : Q) (t : Ty) (h : Made t) (hq : q ∉ [Q.signed, .number, .closure])
    (ha : answer q t = true) : documented q (meant t) = true := by
  rw [answer_eq q t h] at ha
  simp only [List.mem_cons, List.not_mem_nil, or_false, not_or] at hq
  simp only [Bool.and_eq_true] at ha
  have : taken q (meant t) = documented q (meant t) := by cases q <;> simp_all [taken]
  rw [← this]; exact ha.1

/-- C238 fails: a floating-point type is called signed (documented: signed integers), `char`, `wchar` and enumerations are called
numbers (documented: integers and floats), and every class is called a closure. -/
theorem others_taken (t : Ty) (h : Made t) :
    (∀ n, meant t = .prim (.float n) → answer .signed t = true ∧ documented .signed (meant t) = false)
      ∧ (meant t = .prim .char ∨ meant t = .prim .wchar ∨ meant t = .enum →
          answer .number t = true ∧ documented .number (meant t) = false)
      ∧ (meant t = .class false → answer .closure t = true ∧ documented .closure (meant t) = false) := by
  refine ⟨fun n e => ?_, fun e => ?_, fun e => ?_⟩
  · rw [answer_eq _ t h, e]; simp [taken, seen, documented]
  · rw [answer_eq _ t h]
    rcases e with e | e | e <;> rw [e] <;> simp [taken, seen, documented]
  · rw [answer_eq _ t h, e]; simp [taken, seen, documented]

/-- C238 fails: a pointer, a reference, a slice or an enumeration that is `const` is denied to be one, and an enumeration under another
name too. -/
theorem layers_hide (t : Ty) (h : Made t) :
    (isConst t = true → ∀ q ∈ [Q.pointer, .reference, .slice, .enum], answer q t = false)
      ∧ (aliased t = true → answer .enum t = false)
      ∧ (aliased t = true → isConst t = true → ∀ q ∈ [Q.string, .function, .optional, .class], answer q t = false)
      ∧ (isConst t = true → isThis t = true → answer .struct t = false) := by
  refine ⟨fun hc q hq => ?_, fun ha => ?_, fun ha hc q hq => ?_, fun hc ht => ?_⟩
  · simp only [List.mem_cons, List.not_mem_nil, or_false] at hq
    rcases hq with rfl | rfl | rfl | rfl <;> rw [answer_eq _ t h] <;> simp [seen, hc]
  · rw [answer_eq _ t h]; simp [seen, ha]
  · simp only [List.mem_cons, List.not_mem_nil, or_false] at hq
    rcases hq with rfl | rfl | rfl | rfl <;> rw [answer_eq _ t h] <;> simp [seen, ha, hc]
  · rw [answer_eq _ t h]; simp [seen, hc, ht]

/-- An alias of an alias of a constant integer. -/
example : Made (.alias (.alias (.const (.base (.prim (.int true 4)))))) ∧
    answer .integer (.alias (.alias (.const (.base (.prim (.int true 4)))))) = true := ⟨trivial, rfl⟩

/-- A constant pointer, and an alias of it. -/
example : Made (.const (.base .pointer)) ∧ isConst (.alias (.const (.base .pointer))) = true ∧
    answer .pointer (.const (.base .pointer)) = false ∧ answer .pointer (.alias (.base .pointer)) = true := ⟨trivial, rfl, rfl, rfl⟩

/-- `const` on the type of `this`. -/
example : Made (.const (.this (.base (.struct false false false false)))) ∧
    answer .struct (.const (.this (.base (.struct false false false false)))) = false ∧
    answer .struct (.this (.base (.struct false false false false))) = true := ⟨trivial, rfl, rfl⟩

end Verif.TypeQ
