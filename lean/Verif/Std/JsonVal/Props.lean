import Verif.Std.JsonVal.Docs
/-! # C183–C187: JSON -/
namespace Verif.JsonVal

open Verif.Json (isSpace)

/-! ## C183: documents are read as what they say -/

/-- **C183 (partial).** A JSON text that has a value at a type is read as that value, whatever its layout, the order of its members and the
nesting of its parts. Missing (see `Doc.val`): integers beyond `2 ^ 53`, strings with a backslash at their end, and negative numbers among
members that are skipped. -/
theorem json_read_partial (frac : List Nat → Int) (d : Doc) (t : Ty) (v : Val) (w w' : List Nat) (_hd : d.proper = true) (h : d.val t = some v)
    (hw : Ws w = true) (hw' : Ws w' = true) : fromString frac t (w ++ d.text ++ w') = .ok v w' := by
  rw [List.append_assoc]
  exact read_doc frac d t v w w' h hw (by simpa using Delim.nil.ws w' hw')

/-! ### Numbers -/

theorem digits_all (n : Nat) : digits n ≠ [] ∧ (digits n).all isDigit = true ∧ value (digits n) = n := by
  induction n using Nat.strongRecOn with
  | _ n ih =>
    rw [digits]
    split
    · refine ⟨by simp, by simp [isDigit]; omega, by simp [value]⟩
    · obtain ⟨-, h2, h3⟩ := ih (n / 10) (by omega)
      refine ⟨by simp, ?_, ?_⟩
      · rw [List.all_append, h2]
        simp [isDigit]
        omega
      · unfold value at h3 ⊢
        rw [List.foldl_append, h3]
        simp
        omega

/-- The number as a document. -/
def numOf (v : Int) : Num := ⟨decide (v < 0), digits v.natAbs, none, none⟩

theorem numOf_ok (v : Int) : (numOf v).ok = true := by
  have := digits_all v.natAbs
  simp [numOf, Num.ok, this.1, this.2.1]

theorem numOf_text (v : Int) : (numOf v).text = showInt v := by
  unfold numOf Num.text Num.sign showInt
  by_cases h : v < 0 <;> simp [h, Num.fracText, Num.expText]

theorem numOf_integer (v : Int) : (numOf v).integer = some v := by
  unfold Num.integer
  rw [numOf_ok]
  simp only [numOf, Option.isNone_none, Bool.and_self, if_true, (digits_all v.natAbs).2.2, decide_eq_true_eq, Option.some.injEq]
  split <;> omega

/-- What is read for a number. -/
theorem read_number (frac : List Nat → Int) (t : IntTy) (v : Int) :
    fromString frac (.int t) (showInt v) =
      if t.holds (if v < 0 then -(toF64 v.natAbs : Int) else toF64 v.natAbs) then .ok (.int (if v < 0 then -(toF64 v.natAbs : Int) else toF64 v.natAbs)) []
      else .ub := by
  have e := expectNumber_ok (numOf v) (numOf_ok v) [] [] rfl Delim.nil
  rw [List.nil_append, List.append_nil, numOf_text] at e
  have hd := digits_all v.natAbs
  have hs : strtod frac (showInt v) = if v < 0 then -(toF64 v.natAbs : Int) else toF64 v.natAbs := by
    unfold strtod showInt
    by_cases h : v < 0
    · simp only [h, if_true, List.headD_cons, List.tail_cons, hd.2.1, hd.2.2]
    · obtain ⟨c, r, e1, hc⟩ := digits_cons _ hd.1 hd.2.1
      have h45 : ¬ (digits v.natAbs).headD 0 = 45 := by rw [e1]; exact (digit_facts c hc).2.2.2.1
      simp only [h, if_false, h45, hd.2.1, hd.2.2, if_true]
  unfold fromString
  rw [parse, expectInteger, e]
  simp only [G.bind, hs]
  by_cases hh : t.holds (if v < 0 then -(toF64 v.natAbs : Int) else toF64 v.natAbs) = true
  · rw [if_pos hh, if_pos hh]
  · rw [if_neg hh, if_neg hh]

/-- Doubles between `2 ^ 53` and `2 ^ 54` are even. -/
theorem toF64_even (n : Nat) (h1 : 2 ^ 53 < n) (h2 : n < 2 ^ 54) : toF64 n % 2 = 0 ∧ toF64 n ≤ 2 ^ 54 := by
  have hl : n.log2 = 53 := by
    have a := (Nat.log2_lt (n := n) (k := 54) (by omega)).2 h2
    have b := (Nat.le_log2 (n := n) (k := 53) (by omega)).2 (by omega)
    omega
  unfold toF64
  rw [hl]
  simp only [show (53 : Nat) - 52 = 1 from rfl, Nat.pow_one]
  constructor
  · omega
  · split <;> omega

/-- **C183 (negated).** An odd integer between `2 ^ 53` and `2 ^ 54` is read as a different one, without an error. -/
theorem large_integer_changed (frac : List Nat → Int) (n : Nat) (h1 : 2 ^ 53 < n) (h2 : n < 2 ^ 54) (ho : n % 2 = 1) :
    IntTy.i64.holds n = true ∧ (Doc.num (numOf n)).proper = true ∧
      ∃ v : Int, v ≠ n ∧ fromString frac (.int .i64) (Doc.num (numOf n)).text = .ok (.int v) [] := by
  have he := toF64_even n h1 h2
  refine ⟨by simp [IntTy.holds, IntTy.i64]; omega, numOf_ok n, toF64 n, by omega, ?_⟩
  have := read_number frac .i64 n
  rw [show (Doc.num (numOf n)).text = (numOf n).text from by simp [Doc.text], numOf_text, this]
  have hneg : ¬ ((n : Int) < 0) := by omega
  simp only [hneg, if_false, Int.natAbs_natCast]
  rw [if_pos]
  simp [IntTy.holds, IntTy.i64]
  omega

example : fromString (fun _ => 0) (.int .i64) [57, 48, 48, 55, 49, 57, 57, 50, 53, 52, 55, 52, 48, 57, 57, 51] = .ok (.int 9007199254740992) [] := by
  rfl

/-- A type `{ a: i32 = 7; b: (bool, String?) = (false, null) }` with other members allowed. -/
def sampleTy : Ty := .struct (.cons [97] (.int .i32) (.int 7) (.cons [98] (.tuple (.cons .bool (.cons (.opt .str) .nil))) (.tup [.bool false, .none]) .nil)) true

/-- `{ "b" : [true, null ],"x":{"y":[1.5e+3]}, "a":-42 }` -/
def sampleDoc : Doc :=
  .obj (.cons [32] [98] [32] [32] (.arr (.cons [] (.bool true) [] (.cons [32] .null [32] .nil)) []) [] true
    (.cons [] [120] [] [] (.obj (.cons [] [121] [] [] (.arr (.cons [] (.num ⟨false, [49], some [53], some (false, some false, [51])⟩) [] .nil) []) [] false .nil) []) [] true
      (.cons [32] [97] [] [] (.num ⟨true, [52, 50], none, none⟩) [32] false .nil))) []

example : sampleDoc.proper = true ∧ sampleDoc.val sampleTy = some (.obj [.int (-42), .tup [.bool true, .none]]) := by
  exact ⟨rfl, rfl⟩

/-- **C183.** An integer that is read is one of its type. -/
theorem read_integer_in_range (frac : List Nat → Int) (sg : Bool) (n : Nat) (s r : List Nat) (v : Val)
    (h : fromString frac (.int ⟨sg, n⟩) s = .ok v r) :
    ∃ i : Int, v = .int i ∧ (sg = true → -2 ^ (n - 1) ≤ i ∧ i < 2 ^ (n - 1)) ∧ (sg = false → 0 ≤ i ∧ i < 2 ^ n) := by
  simp only [fromString, parse, expectInteger] at h
  cases e : expectNumber s with
  | ok tok r' =>
    simp only [e, G.bind] at h
    by_cases hh : (IntTy.mk sg n).holds (strtod frac tok) = true
    · rw [if_pos hh] at h
      simp only [G.ok.injEq] at h
      refine ⟨_, h.1.symm, ?_, ?_⟩
      · intro hs; simpa [IntTy.holds, hs] using hh
      · intro hs; simpa [IntTy.holds, hs] using hh
    · rw [if_neg hh] at h; simp at h
  | raised => simp [e, G.bind] at h
  | ub => simp [e, G.bind] at h
  | more => simp [e, G.bind] at h

example : fromString (fun _ => 0) (.int .i8) [45, 49, 50, 56] = .ok (.int (-128)) [] := by
  rw [fromString, parse]
  have : expectInteger (fun _ => 0) .i8 [45, 49, 50, 56] = .ok (-128) [] := by decide +kernel
  rw [this]; rfl

/-! ## C184: members that are not known -/

/-- Members one behind the other. -/
def Mems.append : Mems → Mems → Mems
  | .nil, b => b
  | .cons w1 key w2 w3 d w4 comma ms, b => .cons w1 key w2 w3 d w4 comma (ms.append b)

theorem Mems.text_append : ∀ (a b : Mems), (a.append b).text = a.text ++ b.text
  | .nil, b => rfl
  | .cons w1 key w2 w3 d w4 comma ms, b => by
    simp only [Mems.append, Mems.text_cons, Mems.text_append ms b, List.append_assoc, List.cons_append]

theorem Mems.vals_append (fs : Fields) (p : Bool) (b : Mems) : ∀ (a : Mems) (obj : List Val),
    (a.append b).vals fs p obj = (a.vals fs p obj).bind fun o => b.vals fs p o
  | .nil, obj => by simp [Mems.append, Mems.vals]
  | .cons w1 key w2 w3 d w4 comma ms, obj => by
    simp only [Mems.append, Mems.vals]
    split
    · split
      · cases hd : d.val _ with
        | none => rfl
        | some v => simp only [Option.bind_some]; exact Mems.vals_append fs p b ms _
      · split
        · exact Mems.vals_append fs p b ms _
        · rfl
    · rfl

/-- **C184 (partial).** A structure that allows other members is read in the same way if one is added anywhere, whatever its value. Missing:
values with a negative number (see `negative_number_not_skipped`) or a string with a backslash at its end. -/
theorem other_member_skipped_partial (frac : List Nat → Int) (fs : Fields) (a b : Mems) (w w' : List Nat) (v : Val)
    (w1 key w2 w3 : List Nat) (d : Doc) (w4 : List Nat) (hw : Ws w = true) (hw' : Ws w' = true)
    (h : (Doc.obj (a.append b) w).val (.struct fs true) = some v)
    (hs : Ws w1 = true ∧ okStr key = true ∧ Ws w2 = true ∧ Ws w3 = true ∧ Ws w4 = true) (hk : fs.find 0 key = none) (hd : d.plain = true) (comma : Bool) :
    fromString frac (.struct fs true) ((Doc.obj (a.append (.cons w1 key w2 w3 d w4 comma b)) w).text ++ w') = .ok v w' := by
  have key' : (Doc.obj (a.append (.cons w1 key w2 w3 d w4 comma b)) w).val (.struct fs true) = some v := by
    rw [← h]
    simp only [Doc.val, Ty.core, Mems.vals_append, hw, if_true]
    congr 1
    cases a.vals fs true fs.inits with
    | none => rfl
    | some o =>
      simp only [Option.bind_some]
      rw [Mems.vals]
      simp only [hs.1, hs.2.1, hs.2.2.1, hs.2.2.2.1, hs.2.2.2.2, hk, hd, Bool.and_self, if_true]
  exact read_doc frac _ _ v [] w' key' rfl (by simpa using Delim.nil.ws w' hw')

/-- Reading up to a member. -/
theorem read_up_to (frac : List Nat → Int) (fs : Fields) (p : Bool) (a : Mems) (o : List Val) (h : a.vals fs p fs.inits = some o)
    (w1 key w2 rest : List Nat) (h1 : Ws w1 = true) (hk : okStr key = true) (h2 : Ws w2 = true) : ∃ f,
    fromString frac (.struct fs p) (123 :: (a.text ++ (w1 ++ 34 :: (key ++ 34 :: (w2 ++ 58 :: rest))))) =
      (((parseField frac fs p 0 key o rest).bind fun obj r =>
        members (fun key obj r => parseField frac fs p 0 key obj r) (f + 1) obj (consumeChar 44 r).2).bind fun vs r =>
          (expectChar 125 r).bind fun _ r => .ok (.obj vs) r) := by
  have hc := a.count_le
  have e0 := expectChar_ok [] 123 (a.text ++ (w1 ++ 34 :: (key ++ 34 :: (w2 ++ 58 :: rest)))) rfl (by decide)
  rw [List.nil_append] at e0
  have e1 := expectString_ok [] key (w2 ++ 58 :: rest) rfl hk
  rw [List.nil_append] at e1
  have hlen : (a.text ++ (w1 ++ 34 :: (key ++ 34 :: (w2 ++ 58 :: rest)))).length + 1 - a.count =
      ((a.text ++ (w1 ++ 34 :: (key ++ 34 :: (w2 ++ 58 :: rest)))).length - a.count - 1) + 1 + 1 := by
    simp only [List.length_append, List.length_cons]
    omega
  refine ⟨(a.text ++ (w1 ++ 34 :: (key ++ 34 :: (w2 ++ 58 :: rest)))).length - a.count - 1, ?_⟩
  unfold fromString
  rw [parse, e0]
  simp only [G.bind]
  rw [read_mems frac fs p a fs.inits o _ w1 34 _ h h1 (.inr rfl) (by rw [List.length_append]; omega), hlen, members, skipWs_ws_cons w1 34 _ h1 (by decide),
    List.headD_cons, if_neg (show ¬ (34 : Nat) = 125 by decide), e1]
  simp only [G.bind]
  rw [expectChar_ok w2 58 _ h2 (by decide)]

/-- **C184.** A structure that allows no other members refuses one anywhere, whatever comes behind it. -/
theorem other_member_refused (frac : List Nat → Int) (fs : Fields) (a : Mems) (o : List Val) (h : a.vals fs false fs.inits = some o)
    (w1 key w2 rest : List Nat) (h1 : Ws w1 = true) (hk : okStr key = true) (h2 : Ws w2 = true) (hu : fs.find 0 key = none) :
    fromString frac (.struct fs false) (123 :: (a.text ++ (w1 ++ 34 :: (key ++ 34 :: (w2 ++ 58 :: rest))))) = .raised := by
  obtain ⟨f, e⟩ := read_up_to frac fs false a o h w1 key w2 rest h1 hk h2
  rw [e, parseField_find, hu]
  rfl

/-- **C184 (negated).** A structure that allows other members refuses one that is a negative number, anywhere. -/
theorem negative_number_not_skipped (frac : List Nat → Int) (fs : Fields) (a : Mems) (o : List Val) (h : a.vals fs true fs.inits = some o)
    (w1 key w2 w3 rest : List Nat) (h1 : Ws w1 = true) (hk : okStr key = true) (h2 : Ws w2 = true) (h3 : Ws w3 = true) (hu : fs.find 0 key = none)
    (n : Num) (hn : n.neg = true) :
    fromString frac (.struct fs true) (123 :: (a.text ++ (w1 ++ 34 :: (key ++ 34 :: (w2 ++ 58 :: (w3 ++ (n.text ++ rest))))))) = .raised := by
  obtain ⟨f, e⟩ := read_up_to frac fs true a o h w1 key w2 (w3 ++ (n.text ++ rest)) h1 hk h2
  obtain ⟨t, ht⟩ : ∃ t, n.text ++ rest = 45 :: t := ⟨n.int ++ n.fracText ++ n.expText ++ rest, by simp [Num.text, Num.sign, hn]⟩
  have hs : skipValue (2 * (w3 ++ (n.text ++ rest)).length + 1) (w3 ++ (n.text ++ rest)) = .ok () (45 :: t) := by
    rw [ht, skipValue]
    simp only [skipWs_ws_cons w3 45 t h3 (by decide), List.headD_cons]
    rw [if_neg (by decide), if_neg (by decide), if_neg (by decide), if_neg (by decide), if_neg (by decide), if_neg (by decide)]
  rw [e, parseField_find, hu]
  simp only [if_true, hs, G.bind]
  rw [consume_other 44 45 t (by decide) (by decide), members, skipWs_cons 45 t (by decide), List.headD_cons, if_neg (show ¬ (45 : Nat) = 125 by decide)]
  have : expectString (45 :: t) = .raised := by
    unfold expectString
    rw [skipWs_cons 45 t (by decide)]
    rfl
  rw [this]
  rfl

/-- `{"x": -1}` for a structure without members that allows others. -/
example : fromString (fun _ => 0) (.struct .nil true) [123, 34, 120, 34, 58, 32, 45, 49, 125] = .raised := by rfl

/-! ## C185: what is not JSON -/

/-- The kinds of documents and types. -/
inductive Kind where
  | null | bool | num | str | arr | obj
  deriving DecidableEq

def Doc.kind : Doc → Kind
  | .null => .null
  | .bool _ => .bool
  | .num _ => .num
  | .str _ => .str
  | .arr _ _ => .arr
  | .obj _ _ => .obj

def Ty.kind : Ty → Kind
  | .bool => .bool
  | .int _ => .num
  | .str => .str
  | .tuple _ => .arr
  | .struct _ _ => .obj
  | .opt t => t.kind

/-- Optionals do not change that an error is raised. -/
theorem raise_wrap (frac : List Nat → Int) : ∀ (t : Ty) (s : List Nat), (skipWs s).head? ≠ some 110 →
    parse frac t.core s = .raised → parse frac t s = .raised
  | .opt t, s, h, hp => by
    simp only [parse, matchNull_not s h, Bool.false_eq_true, if_false, parse_skip]
    rw [raise_wrap frac t s h (by simpa [Ty.core] using hp)]
    rfl
  | .bool, s, h, hp => hp
  | .int k, s, h, hp => hp
  | .str, s, h, hp => hp
  | .tuple ts, s, h, hp => hp
  | .struct fs p, s, h, hp => hp

theorem core_kind : ∀ t : Ty, t.core.kind = t.kind ∧ t.core.isOpt = false
  | .opt t => core_kind t
  | .bool => ⟨rfl, rfl⟩
  | .int _ => ⟨rfl, rfl⟩
  | .str => ⟨rfl, rfl⟩
  | .tuple _ => ⟨rfl, rfl⟩
  | .struct _ _ => ⟨rfl, rfl⟩

/-- Which beginnings are refused. -/
theorem refuse_head (frac : List Nat → Int) (t : Ty) (ht : t.isOpt = false) (c : Nat) (r s : List Nat) (hs : skipWs s = c :: r)
    (h : match t.kind with
      | .bool => isAlpha c = false ∨ (c :: r).takeWhile isAlpha = [110, 117, 108, 108]
      | .num => isDigit c = false ∧ c ≠ 45 ∧ c ≠ 46 ∧ c ≠ 69 ∧ c ≠ 101
      | .str => c ≠ 34
      | .arr => c ≠ 91
      | .obj => c ≠ 123
      | .null => False) : parse frac t s = .raised := by
  cases t with
  | bool =>
    simp only [Ty.kind] at h
    have : (c :: r).takeWhile isAlpha = [] ∨ (c :: r).takeWhile isAlpha = [110, 117, 108, 108] := by
      rcases h with h | h
      · exact .inl (by rw [List.takeWhile_cons_of_neg (by simp [h])])
      · exact .inr h
    simp only [parse, expectBool, hs]
    rcases this with e | e <;> rw [e] <;> rfl
  | int k =>
    simp only [Ty.kind] at h
    have : afterNumber (c :: r) = c :: r := by
      unfold afterNumber afterSign
      rw [if_neg (by simpa using h.2.1), dropWhile_stop _ (by simpa using h.1)]
      unfold afterFraction
      rw [if_neg (by simpa using h.2.2.1)]
      unfold afterExponent
      rw [if_neg (by simpa using ⟨h.2.2.2.1, h.2.2.2.2⟩)]
    simp only [parse, expectInteger, expectNumber, hs, this, if_true]
    rfl
  | str =>
    simp only [Ty.kind] at h
    have : expectString s = .raised := by
      unfold expectString
      rw [hs]
      split
      · rename_i e
        simp at e
        exact absurd e.1 h
      · rfl
    simp only [parse, this]
    rfl
  | tuple ts =>
    simp only [Ty.kind] at h
    simp only [parse, expectChar, hs, h, if_false]
    rfl
  | struct fs p =>
    simp only [Ty.kind] at h
    simp only [parse, expectChar, hs, h, if_false]
    rfl
  | opt t => simp [Ty.isOpt] at ht

/-- **C185 (partial).** A document of another kind than the type is refused, whatever follows it. Missing: that what is no JSON text at all is
refused, which is not the case. -/
theorem wrong_kind_refused_partial (frac : List Nat → Int) (d : Doc) (t : Ty) (w rest : List Nat) (hd : d.numOk = true) (hw : Ws w = true)
    (hr : Delim rest) (hk : d.kind ≠ t.kind) (hn : d = .null → t.isOpt = false) : fromString frac t (w ++ (d.text ++ rest)) = .raised := by
  obtain ⟨c, r, e, hsp, -, -, -, h110⟩ := d.text_head hd
  have hs : skipWs (w ++ (d.text ++ rest)) = c :: (r ++ rest) := by rw [e, List.cons_append, skipWs_ws_cons w c _ hw hsp]
  have key : ∀ t' : Ty, t'.isOpt = false → t'.kind = t.kind → parse frac t' (w ++ (d.text ++ rest)) = .raised := by
    intro t' ho hk'
    refine refuse_head frac t' ho c (r ++ rest) _ hs ?_
    rw [hk']
    have hh : d.text.head? = some c := by rw [e]; rfl
    cases d with
    | null =>
      simp only [Doc.text, List.head?_cons, Option.some.injEq] at hh
      subst hh
      have hrr : r = [117, 108, 108] := by simpa [Doc.text] using (List.cons.inj e).2.symm
      subst hrr
      cases hkt : t.kind with
      | bool => exact .inr (takeWhile_all_stop [110, 117, 108, 108] rest (by decide) (fun c h => (hr c h).1))
      | num => simp [isDigit]
      | str => simp
      | arr => simp
      | obj => simp
      | null => exact absurd hkt.symm hk
    | bool b =>
      cases hkt : t.kind with
      | bool => exact absurd hkt.symm hk
      | null => rw [← hk'] at hkt; cases t' <;> simp_all [Ty.kind, Ty.isOpt]
      | _ => cases b <;> (simp only [Doc.text, List.head?_cons, Option.some.injEq] at hh; subst hh; simp [isDigit])
    | num n =>
      simp only [Doc.numOk] at hd
      have hn' := hd
      simp only [Num.ok, Bool.and_eq_true, bne_iff_ne, ne_eq] at hn'
      obtain ⟨c', t'', hct, hc⟩ := digits_cons n.int hn'.1.1.1 hn'.1.1.2
      have hf := digit_facts c' hc
      have hcc : c = 45 ∨ c = c' := by
        cases hneg : n.neg with
        | true => simp [Doc.text, Num.text, Num.sign, hneg] at hh; exact .inl hh.symm
        | false => simp [Doc.text, Num.text, Num.sign, hneg, hct] at hh; exact .inr hh.symm
      cases hkt : t.kind with
      | num => exact absurd hkt.symm hk
      | null => rw [← hk'] at hkt; cases t' <;> simp_all [Ty.kind, Ty.isOpt]
      | bool => rcases hcc with rfl | rfl; exact .inl (by decide); exact .inl hf.2.1
      | str => rcases hcc with rfl | rfl; simp; exact hf.2.2.2.2.2.1
      | arr => rcases hcc with rfl | rfl; simp; exact hf.2.2.2.2.2.2.2.2.2.1
      | obj => rcases hcc with rfl | rfl; simp; exact hf.2.2.2.2.2.2.2.2.1
    | str s =>
      simp only [Doc.text, List.cons_append, List.head?_cons, Option.some.injEq] at hh
      subst hh
      cases hkt : t.kind with
      | str => exact absurd hkt.symm hk
      | null => rw [← hk'] at hkt; cases t' <;> simp_all [Ty.kind, Ty.isOpt]
      | bool => exact .inl (by decide)
      | _ => simp [isDigit]
    | arr ds w2 =>
      simp only [Doc.text, List.cons_append, List.head?_cons, Option.some.injEq] at hh
      subst hh
      cases hkt : t.kind with
      | arr => exact absurd hkt.symm hk
      | null => rw [← hk'] at hkt; cases t' <;> simp_all [Ty.kind, Ty.isOpt]
      | bool => exact .inl (by decide)
      | _ => simp [isDigit]
    | obj ms w2 =>
      simp only [Doc.text, List.cons_append, List.head?_cons, Option.some.injEq] at hh
      subst hh
      cases hkt : t.kind with
      | obj => exact absurd hkt.symm hk
      | null => rw [← hk'] at hkt; cases t' <;> simp_all [Ty.kind, Ty.isOpt]
      | bool => exact .inl (by decide)
      | _ => simp [isDigit]
  by_cases ho : t.isOpt = false
  · exact key t ho rfl
  · have hd' : d ≠ .null := fun e => ho (hn e)
    refine raise_wrap frac t _ ?_ (key _ (core_kind t).2 (core_kind t).1)
    rw [hs]
    intro e
    simp at e
    exact hd' (h110 e)

/-- **C185.** A boolean is only read from `true` or `false`, not followed by a letter. -/
theorem read_boolean_word (frac : List Nat → Int) (s r : List Nat) (v : Val) (h : fromString frac .bool s = .ok v r) :
    (∀ c, r.head? = some c → isAlpha c = false) ∧ ∃ w, Ws w = true ∧
      ((v = .bool true ∧ s = w ++ [116, 114, 117, 101] ++ r) ∨ (v = .bool false ∧ s = w ++ [102, 97, 108, 115, 101] ++ r)) := by
  have hs : s = s.takeWhile isSpace ++ skipWs s := (List.takeWhile_append_dropWhile).symm
  have hw : Ws (s.takeWhile isSpace) = true := by simp [Ws]
  have hk : skipWs s = (skipWs s).takeWhile isAlpha ++ (skipWs s).dropWhile isAlpha := (List.takeWhile_append_dropWhile).symm
  have hd : ∀ c, ((skipWs s).dropWhile isAlpha).head? = some c → isAlpha c = false := by
    intro c hc
    have := List.head?_dropWhile_not isAlpha (skipWs s)
    rw [hc] at this; simpa using this
  simp only [fromString, parse, expectBool] at h
  split at h
  · rename_i e
    simp only [G.bind, G.ok.injEq] at h
    obtain ⟨rfl, rfl⟩ := h
    refine ⟨hd, _, hw, .inl ⟨rfl, ?_⟩⟩
    rw [← e, List.append_assoc, ← hk]; exact hs
  · split at h
    · rename_i e
      simp only [G.bind, G.ok.injEq] at h
      obtain ⟨rfl, rfl⟩ := h
      refine ⟨hd, _, hw, .inr ⟨rfl, ?_⟩⟩
      rw [← e, List.append_assoc, ← hk]; exact hs
    · simp [G.bind] at h

example : fromString (fun _ => 0) .bool [32, 116, 114, 117, 101, 44] = .ok (.bool true) [44] := by
  simp [fromString, parse, expectBool, skipWs, isAlpha, Json.isSpace, G.bind]

/-- **C185 (negated).** Commas between members may be left out or come behind the last: with any choice of commas the text is read as the same
value. -/
theorem commas_do_not_matter (frac : List Nat → Int) (ms ms' : Mems) (w w' : List Nat) (fs : Fields) (p : Bool) (v : Val)
    (hsame : ∀ obj, ms'.vals fs p obj = ms.vals fs p obj) (h : (Doc.obj ms w).val (.struct fs p) = some v) (hw' : Ws w' = true) :
    fromString frac (.struct fs p) ((Doc.obj ms' w).text ++ w') = .ok v w' := by
  have : (Doc.obj ms' w).val (.struct fs p) = some v := by
    rw [← h]
    simp only [Doc.val, Ty.core, hsame]
  exact read_doc frac _ _ v [] w' this rfl (by simpa using Delim.nil.ws w' hw')

/-- The members without commas. -/
def Mems.uncomma : Mems → Mems
  | .nil => .nil
  | .cons w1 key w2 w3 d w4 _ ms => .cons w1 key w2 w3 d w4 false ms.uncomma

theorem uncomma_vals (fs : Fields) (p : Bool) : ∀ (ms : Mems) (obj : List Val), ms.uncomma.vals fs p obj = ms.vals fs p obj
  | .nil, _ => rfl
  | .cons w1 key w2 w3 d w4 c ms, obj => by
    simp only [Mems.uncomma, Mems.vals, uncomma_vals fs p ms]

theorem uncomma_improper (w1 key w2 w3 : List Nat) (d : Doc) (w4 : List Nat) (c : Bool) (ms : Mems) (hms : ms.isNil = false) :
    (Mems.cons w1 key w2 w3 d w4 c ms).uncomma.proper = false := by
  cases ms with
  | nil => simp [Mems.isNil] at hms
  | cons => simp [Mems.uncomma, Mems.proper, Mems.isNil]

/-- **C185 (negated).** Two members or more without any comma, which is no JSON text, are read as the members they are. -/
theorem missing_commas_accepted (frac : List Nat → Int) (w1 key w2 w3 : List Nat) (d : Doc) (w4 : List Nat) (c : Bool) (ms : Mems) (w w' : List Nat)
    (fs : Fields) (p : Bool) (v : Val) (hms : ms.isNil = false)
    (h : (Doc.obj (.cons w1 key w2 w3 d w4 c ms) w).val (.struct fs p) = some v) (hw' : Ws w' = true) :
    (Doc.obj (Mems.cons w1 key w2 w3 d w4 c ms).uncomma w).proper = false ∧
    fromString frac (.struct fs p) ((Doc.obj (Mems.cons w1 key w2 w3 d w4 c ms).uncomma w).text ++ w') = .ok v w' := by
  refine ⟨by simp [Doc.proper, uncomma_improper w1 key w2 w3 d w4 c ms hms], ?_⟩
  exact commas_do_not_matter frac _ _ w w' fs p v (uncomma_vals fs p _) h hw'

/-- **C185 (negated).** What comes behind a value is not looked at: any text may follow. -/
theorem trailing_text_ignored (frac : List Nat → Int) (d : Doc) (t : Ty) (v : Val) (w rest : List Nat) (h : d.val t = some v) (hw : Ws w = true)
    (hr : Delim rest) : fromString frac t (w ++ (d.text ++ rest)) = .ok v rest := read_doc frac d t v w rest h hw hr

/-- `[true]]]}` -/
example : fromString (fun _ => 0) (.tuple (.cons .bool .nil)) [91, 116, 114, 117, 101, 93, 93, 93, 125] = .ok (.tup [.bool true]) [93, 93, 125] := by rfl

end Verif.JsonVal
