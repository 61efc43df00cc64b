import Verif.Lang.Eval.Props
import Verif.Lang.Prim.Props
/-!
# Programs with expressions built from integer literals

Before types are checked the preprocessor (`src/cxy/lang/middle/preprocess/preprocessor.c` 38-66,
`evaluate.c`) replaces every operator whose operands are literals by its value. Parentheses are nodes
of their own (parser.c 1265-1288 `parenExpr`), which the preprocessor does not look into when it
decides whether an operand is a literal. What is left is compiled: a literal gets the smallest signed
type that holds it (check.c 748-751, ttable.c 1444) and an operator the bigger operand type
(sema/binary.c 240 `promoteType`).
-/
namespace Verif.Eval
open Verif.Codegen
open Verif.Prim (Prim Holds promote literalType isSignedInteger isInteger size)
open Verif.Prim.Prim
variable {F : Type}

/-- An expression of the source made of integer literals; `group` is a pair of parentheses. -/
inductive Src where
  | lit (v : Int)
  | bin (op : Op) (a b : Src)
  | neg (a : Src)
  | group (a : Src)
  deriving DecidableEq, Repr

/-- preprocessor.c 38-50 `visitBinaryExpr` after its operands: evaluate.c 13-271 does on two integer
literals what eval/binary.c does, see `binary`. A comparison gives a boolean literal, which is outside
of this model. -/
def foldBin (stale : Bool) (op : Op) : Src → Src → Res Src
  | .lit x, .lit y => (binary stale op x y).bind fun v =>
      match v with
      | .int z => .ok (.lit z)
      | .bool _ => .ub
  | a, b => .ok (.bin op a b)

/-- preprocessor.c 52-66 `visitUnaryExpr` after its operand, evaluate.c 287-304
`evalPrefixMinusOperation`. -/
def foldNeg : Src → Res Src
  | .lit x => (neg x).map .lit
  | a => .ok (.neg a)

/-- preprocessor.c: the visit of an expression; `stale` as in `eval`. -/
def fold (stale : Src → Bool) : Src → Res Src
  | .lit v => .ok (.lit v)
  | .bin op a b => (fold stale a).bind fun a' => (fold stale b).bind fun b' =>
      foldBin (stale (.bin op a b)) op a' b'
  | .neg a => (fold stale a).bind foldNeg
  | .group a => (fold stale a).map .group

/-- check.c 748-751, sema/binary.c 240-263, sema/unary.c 53-80, check.c 614-622: the type of an
expression made of integer literals (prefix minus and parentheses keep the operand's type). -/
def typeOf : Src → Option Prim
  | .lit v => some (literalType v)
  | .bin _ a b => (typeOf a).bind fun l => (typeOf b).bind fun r => promote l r
  | .neg a => typeOf a
  | .group a => typeOf a

/-- generate.cpp 198-205 `visitIntegerLit`, binary.cpp `generateBinaryExpr`, generate.cpp 105-149
(`CreateNeg` is `0 - x`), 1322 (the fallback visits what is inside of parentheses). -/
def gen (fo : FloatOps F) : Src → Res (LVal F)
  | .lit v => .ok (rep (literalType v) v)
  | .bin op a b =>
    match typeOf a, typeOf b with
    | some l, some r => (gen fo a).bind fun x => (gen fo b).bind fun y => Codegen.binary fo op l r x y
    | _, _ => .ub
  | .neg a =>
    match typeOf a with
    | some t => (gen fo a).bind fun x => Codegen.binary fo .sub t t (rep t 0) x
    | none => .ub
  | .group a => gen fo a

/-- What `var x: to = e` stores: preprocess, check, generate, convert to the type of the variable. -/
def store (fo : FloatOps F) (stale : Src → Bool) (to : Prim) (e : Src) : Res (LVal F) :=
  (fold stale e).bind fun e' =>
    match typeOf e' with
    | some t => (gen fo e').bind (assign fo to t)
    | none => .ub

/-! ## Specification -/

/-- The mathematical value of an expression. -/
def math : Src → Option Int
  | .lit v => some v
  | .bin op a b => (math a).bind fun x => (math b).bind fun y => exact op x y
  | .neg a => (math a).map fun x => -x
  | .group a => math a

/-- No parentheses. -/
def bare : Src → Bool
  | .lit _ => true
  | .bin _ a b => bare a && bare b
  | .neg a => bare a
  | .group _ => false

/-- The parts without parentheses stay in the exact range of a double and give no negative result at
an operator (a negative literal or prefix minus is fine). -/
def Calm : Src → Prop
  | .lit _ => True
  | .bin op a b => Calm a ∧ Calm b ∧ (bare (.bin op a b) = true →
      ∃ x y z, math a = some x ∧ math b = some y ∧ exact op x y = some z ∧
        Fits x ∧ Fits y ∧ 0 ≤ z ∧ z ≤ 2 ^ 53)
  | .neg a => Calm a ∧ (bare a = true → ∃ x, math a = some x ∧ Fits x)
  | .group a => Calm a

/-- Every intermediate exact value fits the type of its node. -/
inductive FitsTypes : Src → Prim → Int → Prop
  | lit (v : Int) : -2 ^ 63 ≤ v → v < 2 ^ 63 → FitsTypes (.lit v) (literalType v) v
  | neg (a : Src) (t : Prim) (v : Int) : FitsTypes a t v → Holds t (-v) → FitsTypes (.neg a) t (-v)
  | group (a : Src) (t : Prim) (v : Int) : FitsTypes a t v → FitsTypes (.group a) t v
  | bin (op : Op) (a b : Src) (l r t : Prim) (x y z : Int) : FitsTypes a l x → FitsTypes b r y →
      promote l r = some t → exact op x y = some z → Holds t z →
      (op = .shr → 0 ≤ x) → (op = .shr ∨ op = .shl → y < 8 * size t) →
      (op = .mod → Holds t (Int.tdiv x y)) → FitsTypes (.bin op a b) t z

theorem literalType_signed (v : Int) : isSignedInteger (literalType v) = true := by
  unfold literalType; split <;> (try split) <;> (try split) <;> rfl

theorem promote_signed (l r t : Prim) (hl : isSignedInteger l = true) (hr : isSignedInteger r = true)
    (h : promote l r = some t) :
    isSignedInteger t = true ∧ (l = r ∨ size l ≠ size r) ∧ ∀ v, Holds l v ∨ Holds r v → Holds t v := by
  cases l <;> simp [isSignedInteger] at hl <;> cases r <;> simp [isSignedInteger] at hr <;>
    simp [promote, isInteger, Prim.isUnsigned, isSignedInteger, size] at h <;> subst h <;>
    refine ⟨rfl, by decide, ?_⟩ <;> intro v hv <;> simp only [Holds] at * <;> omega

theorem signed_integer {t : Prim} (h : isSignedInteger t = true) : isInteger t = true := by
  simp [isInteger, h]

theorem run_op (fo : FloatOps F) (op : Op) (l r t : Prim) (x y z : Int) (hl : isSignedInteger l = true)
    (hr : isSignedInteger r = true) (hx : Holds l x) (hy : Holds r y) (ht : promote l r = some t)
    (hz : exact op x y = some z) (hzt : Holds t z) (hshr : op = .shr → 0 ≤ x)
    (hsh : op = .shr ∨ op = .shl → y < 8 * size t) (hmod : op = .mod → Holds t (Int.tdiv x y)) :
    Codegen.binary fo op l r (rep l x) (rep r y) = .ok (rep t z) := by
  obtain ⟨hts, hsz, hmono⟩ := promote_signed l r t hl hr ht
  have hti : isIntLike t = true := intLike_of_integer (signed_integer hts)
  have hxt := hmono x (Or.inl hx)
  have hyt := hmono y (Or.inr hy)
  by_cases hB : op = .band ∨ op = .bor ∨ op = .bxor
  · have hb := binary_rep fo op l r (signed_integer hl) (signed_integer hr) x y hx hy
    have hT := promote_codegen l r (signed_integer hl) (signed_integer hr) hsz
    rw [ht] at hT
    simp only [← Option.some.inj hT] at hb
    rw [hb]
    rcases hB with rfl | rfl | rfl <;> simp [exact] at hz <;> obtain ⟨⟨hx0, hy0⟩, rfl⟩ := hz <;>
      simp only [intOp, rep, enc_nonneg t hti x hxt hx0, enc_nonneg t hti y hyt hy0] <;>
      rw [enc_nonneg t hti _ hzt (Int.natCast_nonneg _), Int.toNat_natCast]
  have hA : isArith op = true := by cases op <;> simp [exact] at hz hB <;> rfl
  have cx := conv_of_holds t hti x hxt
  have cy := conv_of_holds t hti y hyt
  have cz := conv_of_holds t hti z hzt
  rw [arithmetic_correct_partial fo op hA l r t (signed_integer hl) (signed_integer hr) hsz ht x y hx hy
    (by rw [cx]; exact hshr), cx, cy]
  have : arith t op x y = some z := by
    cases op <;> simp [exact] at hz
    case add => subst hz; simp only [arith, cz]
    case sub => subst hz; simp only [arith, cz]
    case mul => subst hz; simp only [arith, cz]
    case div =>
      obtain ⟨hy0, rfl⟩ := hz
      simp only [arith]; rw [if_neg hy0, if_pos hzt]
    case mod =>
      obtain ⟨hy0, rfl⟩ := hz
      simp only [arith]
      rw [if_neg hy0, if_pos (hmod rfl)]
    case shl =>
      obtain ⟨hy0, rfl⟩ := hz
      simp only [arith]; rw [if_pos ⟨hy0.1, hsh (Or.inr rfl)⟩, cz]
    case shr =>
      obtain ⟨hy0, rfl⟩ := hz
      simp only [arith]; rw [if_pos ⟨hy0.1, hsh (Or.inl rfl)⟩]
    all_goals exact absurd hA (by decide)
  rw [this]

theorem FitsTypes.inv {e : Src} {t : Prim} {v : Int} (h : FitsTypes e t v) :
    typeOf e = some t ∧ isSignedInteger t = true ∧ Holds t v := by
  induction h with
  | lit v h1 h2 => exact ⟨rfl, literalType_signed v, (Verif.Prim.literal_type_minimal v h1 h2).1⟩
  | neg a t v _ hn ih => exact ⟨ih.1, ih.2.1, hn⟩
  | group a t v _ ih => exact ih
  | bin op a b l r t x y z _ _ hp hz ht _ _ _ iha ihb =>
    refine ⟨?_, (promote_signed l r t iha.2.1 ihb.2.1 hp).1, ht⟩
    simp only [typeOf, iha.1, ihb.1, Option.bind_some, hp]

theorem FitsTypes.math {e : Src} {t : Prim} {v : Int} (h : FitsTypes e t v) : math e = some v := by
  induction h with
  | lit v h1 h2 => rfl
  | neg a t v _ hn ih => simp only [Eval.math, ih, Option.map_some]
  | group a t v _ ih => exact ih
  | bin op a b l r t x y z _ _ hp hz ht _ _ _ iha ihb => simp only [Eval.math, iha, ihb, Option.bind_some, hz]

/-- What is compiled has its mathematical value when every intermediate value fits the type of its
own node. -/
theorem gen_exact (fo : FloatOps F) (e : Src) (t : Prim) (v : Int) (h : FitsTypes e t v)
    (to : Prim) (hto : isInteger to = true) :
    (gen fo e).bind (assign fo to t) = .ok (rep to v) := by
  have hg : gen fo e = .ok (rep t v) := by
    induction h with
    | lit v h1 h2 => rfl
    | group a t v _ ih => exact ih
    | neg a t v ha hn ih =>
      obtain ⟨h1, h2, h3⟩ := ha.inv
      simp only [gen, h1, ih, Res.bind_ok]
      have hsame : promote t t = some t := by simp [promote]
      refine run_op fo .sub t t t 0 v (-v) h2 h2 ?_ h3 hsame (by simp [exact]) hn (by intro h; cases h)
        (by intro h; rcases h with h | h <;> cases h) (by intro h; cases h)
      clear ih hsame h3 hn ha
      cases t <;> simp [isSignedInteger] at h2 <;> simp [Holds]
    | bin op a b l r t x y z ha hb hp hz ht hshr hsh hmod iha ihb =>
      obtain ⟨h1, h2, h3⟩ := ha.inv
      obtain ⟨k1, k2, k3⟩ := hb.inv
      simp only [gen, h1, k1, iha, ihb, Res.bind_ok]
      exact run_op fo op l r t x y z h2 k2 h3 k3 hp hz ht hshr hsh hmod
  obtain ⟨_, hts, htv⟩ := h.inv
  rw [hg, Res.bind_ok]
  unfold assign
  split
  · rename_i he; subst he; rfl
  · exact cast_rep fo to t (intLike_of_integer hto) (intLike_of_integer (signed_integer hts)) v htv

/-! ## Preprocessing -/

/-- Not a literal. -/
def compound : Src → Bool
  | .lit _ => false
  | _ => true

theorem foldBin_compound (s : Bool) (op : Op) (a b : Src) (h : compound a = true ∨ compound b = true) :
    foldBin s op a b = .ok (.bin op a b) := by
  cases a <;> cases b <;> simp [compound] at h <;> rfl

theorem foldNeg_compound (a : Src) (h : compound a = true) : foldNeg a = .ok (.neg a) := by
  cases a <;> simp [compound] at h <;> rfl

theorem neg_exact (x : Int) (h : Fits x) : neg x = .ok (-x) := by
  have h2 : Fits (-x) := by unfold Fits at *; omega
  unfold neg
  rw [rnd_exact x h, rnd_exact _ h2]
  unfold Fits at h2
  simp only [toI64, toU64AsI64]
  split
  · rw [if_pos (by omega)]
  · rw [if_pos (by omega), if_pos (by omega)]

/-- Preprocessing keeps the mathematical value; it leaves a literal exactly when there are no
parentheses. -/
theorem fold_exact (stale : Src → Bool) (e : Src) (v : Int) (hc : Calm e) (hm : math e = some v) :
    ∃ e', fold stale e = .ok e' ∧ math e' = some v ∧
      (bare e = true → e' = .lit v) ∧ (bare e = false → compound e' = true) := by
  induction e generalizing v with
  | lit w =>
    simp only [math] at hm
    exact ⟨.lit w, rfl, hm, fun _ => by rw [Option.some.inj hm], fun h => by simp [bare] at h⟩
  | group a ih =>
    obtain ⟨a', h1, h2, _, _⟩ := ih v hc hm
    exact ⟨.group a', by simp only [fold, h1, Res.map_ok], h2, fun h => by simp [bare] at h, fun _ => rfl⟩
  | neg a ih =>
    simp only [math, Option.map_eq_some_iff] at hm
    obtain ⟨x, hx, rfl⟩ := hm
    obtain ⟨a', h1, h2, h3, h4⟩ := ih x hc.1 hx
    by_cases hb : bare a = true
    · obtain ⟨x', hx', hf⟩ := hc.2 hb
      rw [hx] at hx'; cases hx'
      rw [h3 hb] at h1
      refine ⟨.lit (-x), ?_, rfl, fun _ => rfl, fun h => ?_⟩
      · simp only [fold, h1, Res.bind_ok, foldNeg, neg_exact x hf, Res.map_ok]
      · simp only [bare] at h; rw [hb] at h; cases h
    · have hcomp := h4 (by simpa using hb)
      refine ⟨.neg a', ?_, ?_, fun h => absurd h hb, fun _ => rfl⟩
      · simp only [fold, h1, Res.bind_ok, foldNeg_compound a' hcomp]
      · simp only [math, h2, Option.map_some]
  | bin op a b iha ihb =>
    simp only [math] at hm
    cases hma : math a with
    | none => simp [hma] at hm
    | some x =>
      cases hmb : math b with
      | none => simp [hma, hmb] at hm
      | some y =>
        simp only [hma, hmb, Option.bind_some] at hm
        obtain ⟨a', ha1, ha2, ha3, ha4⟩ := iha x hc.1 hma
        obtain ⟨b', hb1, hb2, hb3, hb4⟩ := ihb y hc.2.1 hmb
        by_cases hb : bare (.bin op a b) = true
        · obtain ⟨x', y', z, hx, hy, hz, fx, fy, z0, z1⟩ := hc.2.2 hb
          rw [hma] at hx; cases hx
          rw [hmb] at hy; cases hy
          rw [hm] at hz; cases hz
          simp only [bare, Bool.and_eq_true] at hb
          rw [ha3 hb.1] at ha1
          rw [hb3 hb.2] at hb1
          refine ⟨.lit v, ?_, rfl, fun _ => rfl, fun h => ?_⟩
          · simp only [fold, ha1, hb1, Res.bind_ok, foldBin, binary_exact _ op x y v fx fy hm z0 z1]
          · simp only [bare, hb.1, hb.2, Bool.and_self] at h; cases h
        · have hcomp : compound a' = true ∨ compound b' = true := by
            simp only [bare, Bool.and_eq_true] at hb
            by_cases h1 : bare a = true
            · exact .inr (hb4 (by cases h : bare b <;> simp_all))
            · exact .inl (ha4 (by simpa using h1))
          refine ⟨.bin op a' b', ?_, ?_, fun h => absurd h hb, fun _ => rfl⟩
          · simp only [fold, ha1, hb1, Res.bind_ok, foldBin_compound _ op a' b' hcomp]
          · simp only [math, ha2, hb2, Option.bind_some, hm]

/-- What is missing of C65: expressions with parentheses one of whose intermediate values does not
fit the smallest types of its operands (`parentheses_change_the_value`), and results beyond the
exact range of a double or below zero at an operator (C26). **C65** for the others: the mathematical
value is stored in every variable whose type can hold it. -/
theorem literal_expression_partial (fo : FloatOps F) (stale : Src → Bool) (e : Src) (v : Int)
    (hc : Calm e) (hm : math e = some v) (hr : -2 ^ 63 ≤ v ∧ v < 2 ^ 63)
    (hp : bare e = true ∨ ∀ e', fold stale e = .ok e' → ∃ t, FitsTypes e' t v)
    (to : Prim) (hto : isInteger to = true) :
    store fo stale to e = .ok (rep to v) := by
  obtain ⟨e', h1, h2, h3, _⟩ := fold_exact stale e v hc hm
  have hft : ∃ t, FitsTypes e' t v := by
    rcases hp with hp | hp
    · rw [h3 hp]; exact ⟨_, .lit v hr.1 hr.2⟩
    · exact hp e' h1
  obtain ⟨t, hft⟩ := hft
  unfold store
  rw [h1, Res.bind_ok, hft.inv.1]
  exact gen_exact fo e' t v hft to hto

/-- `100 + 100` is 200. -/
example (fo : FloatOps F) (stale : Src → Bool) :
    store fo stale i32 (.bin .add (.lit 100) (.lit 100)) = .ok (rep i32 200) :=
  literal_expression_partial fo stale (.bin .add (.lit 100) (.lit 100)) 200
    ⟨trivial, trivial, fun _ => ⟨100, 100, 200, rfl, rfl, rfl, by simp [Fits], by simp [Fits], by decide, by decide⟩⟩
    rfl (by decide) (.inl rfl) i32 rfl

/-- `(30 + 30) + 67` -/
example : FitsTypes (.bin .add (.group (.lit 60)) (.lit 67)) i8 127 :=
  .bin .add _ _ i8 i8 i8 60 67 127 (.group _ _ _ (.lit 60 (by decide) (by decide)))
    (.lit 67 (by decide) (by decide)) rfl rfl
    (by decide) (by decide) (by decide) (by decide)

/-- C65 is false of the code: for every two literals of type `i8` whose sum exceeds 127, assigning
`(x) + y` to a variable of any larger signed type stores `x + y - 256`, although without the
parentheses `x + y` is stored. -/
theorem parentheses_change_the_value (fo : FloatOps F) (stale : Src → Bool) (x y : Int) (hx : Holds i8 x)
    (hy : Holds i8 y) (h : x + y > 127) (to : Prim) (hto : isSignedInteger to = true)
    (hbig : size to > 1) :
    store fo stale to (.bin .add (.group (.lit x)) (.lit y)) = .ok (rep to (x + y - 256)) ∧
    store fo stale to (.bin .add (.lit x) (.lit y)) = .ok (rep to (x + y)) ∧
    Holds to (x + y) := by
  have hlx : literalType x = i8 := by
    unfold literalType; rw [if_pos]; simp only [Holds] at hx; omega
  have hly : literalType y = i8 := by
    unfold literalType; rw [if_pos]; simp only [Holds] at hy; omega
  refine ⟨?_, ?_, ?_⟩
  · simp only [store, fold, Res.map_ok, Res.bind_ok, foldBin, gen, typeOf, hlx, hly, Option.bind_some]
    have hpr : promote i8 i8 = some i8 := rfl
    rw [hpr]
    simp only []
    rw [arithmetic_correct_partial fo .add rfl i8 i8 i8 rfl rfl (Or.inl rfl) rfl x y hx hy (by intro h; cases h),
      conv_of_holds i8 rfl x hx, conv_of_holds i8 rfl y hy]
    have hc : conv i8 (x + y) = x + y - 256 := by
      simp only [Holds] at hx hy
      simp only [conv, isSignedInteger, if_true, size, Int.bmod_def, Nat.reduceMul, Nat.reducePow]
      split <;> omega
    simp only [arith, hc, Res.bind_ok]
    have hh : Holds i8 (x + y - 256) := by simp only [Holds] at *; omega
    have hne : to ≠ i8 := by rintro rfl; simp [size] at hbig
    unfold assign
    rw [if_neg hne]
    exact cast_rep fo to i8 (intLike_of_integer (signed_integer hto)) rfl _ hh
  · simp only [Holds] at hx hy
    refine literal_expression_partial fo stale (.bin .add (.lit x) (.lit y)) (x + y) ⟨trivial, trivial, fun _ =>
      ⟨x, y, x + y, rfl, rfl, rfl, ?_, ?_, by omega, by omega⟩⟩ rfl ⟨by omega, by omega⟩ (.inl rfl) to
      (signed_integer hto)
    · unfold Fits; omega
    · unfold Fits; omega
  · simp only [Holds] at hx hy
    cases to <;> simp [isSignedInteger] at hto <;> simp [size] at hbig <;> simp only [Holds] <;> omega

example : Holds i8 100 ∧ (100 : Int) + 100 > 127 ∧ isSignedInteger i32 = true ∧ size i32 > 1 := by decide

/-- C65 is false of the code: the product of `(a + b) * c` is computed in 8 bits; for example
`(50 + 50) * 3` is 44. -/
theorem parenthesised_factor_wraps (fo : FloatOps F) (stale : Src → Bool) (a b c : Int) (ha : 0 ≤ a)
    (hb : 0 ≤ b) (hs : a + b ≤ 127) (hc0 : 0 ≤ c) (hc1 : c ≤ 127) (h : 127 < (a + b) * c)
    (h2 : (a + b) * c < 384) :
    store fo stale i32 (.bin .mul (.group (.bin .add (.lit a) (.lit b))) (.lit c)) =
      .ok (rep i32 ((a + b) * c - 256)) := by
  have hlx : literalType (a + b) = i8 := by unfold literalType; rw [if_pos]; omega
  have hlc : literalType c = i8 := by unfold literalType; rw [if_pos]; omega
  have hfold : binary (stale (.bin .add (.lit a) (.lit b))) .add a b = .ok (.int (a + b)) :=
    binary_exact _ .add a b (a + b) (by unfold Fits; omega) (by unfold Fits; omega) rfl (by omega) (by omega)
  have hX : Holds i8 (a + b) := by simp only [Holds]; omega
  have hC : Holds i8 c := by simp only [Holds]; omega
  simp only [store, fold, Res.map_ok, Res.bind_ok, foldBin, hfold, gen, typeOf, hlx, hlc, Option.bind_some]
  have hpr : promote i8 i8 = some i8 := rfl
  rw [hpr]
  simp only []
  rw [arithmetic_correct_partial fo .mul rfl i8 i8 i8 rfl rfl (Or.inl rfl) rfl _ _ hX hC (by intro h; cases h),
    conv_of_holds i8 rfl _ hX, conv_of_holds i8 rfl c hC]
  generalize hm : (a + b) * c = m at h h2 ⊢
  have hcv : conv i8 m = m - 256 := by
    simp only [conv, isSignedInteger, if_true, size, Int.bmod_def, Nat.reduceMul, Nat.reducePow]
    split <;> omega
  simp only [arith, hm, hcv, Res.bind_ok]
  have hh : Holds i8 (m - 256) := by simp only [Holds]; omega
  unfold assign
  rw [if_neg (by decide)]
  exact cast_rep fo i32 i8 rfl rfl _ hh

example : (0 : Int) ≤ 50 ∧ (50 : Int) + 50 ≤ 127 ∧ 127 < ((50 : Int) + 50) * 3 ∧ ((50 : Int) + 50) * 3 < 384 := by decide

/-- C65 is false of the code: a difference of literals that is negative is computed by converting a
negative double to `u64`, which is undefined, whenever the stale byte is zero. -/
theorem negative_difference_undefined (fo : FloatOps F) (stale : Src → Bool) (x y : Int) (hx : Fits x)
    (hy : Fits y) (hd : Fits (x - y)) (h : x < y) (to : Prim)
    (hs : stale (.bin .sub (.lit x) (.lit y)) = false) :
    store fo stale to (.bin .sub (.lit x) (.lit y)) = .ub := by
  simp only [store, fold, Res.bind_ok, foldBin, hs, (negative_result_undefined x y hx hy hd h).1]
  rfl

end Verif.Eval
