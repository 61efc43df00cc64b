import Verif.Std.JsonVal.Read
/-! # Documents are skipped and read -/
namespace Verif.JsonVal

open Verif.Json (isSpace)

/-! ## Texts -/

def Docs.isNil : Docs → Bool
  | .nil => true
  | _ => false

theorem Docs.text_cons (w1 : List Nat) (d : Doc) (w2 : List Nat) (ds : Docs) :
    (Docs.cons w1 d w2 ds).text = w1 ++ (d.text ++ (w2 ++ ((if ds.isNil then [] else [44]) ++ ds.text))) := by
  cases ds <;> simp [Docs.text, Docs.isNil]

theorem Mems.text_cons (w1 key w2 w3 : List Nat) (d : Doc) (w4 : List Nat) (comma : Bool) (ms : Mems) :
    (Mems.cons w1 key w2 w3 d w4 comma ms).text =
      w1 ++ 34 :: (key ++ 34 :: (w2 ++ 58 :: (w3 ++ (d.text ++ (w4 ++ ((if comma then [44] else []) ++ ms.text)))))) := by
  simp [Mems.text]

/-- Numbers in a document have their digits. -/
def Doc.numOk : Doc → Bool
  | .num n => n.ok
  | _ => true

/-- How the text of a document begins. -/
theorem Doc.text_head (d : Doc) (h : d.numOk = true) :
    ∃ c r, d.text = c :: r ∧ isSpace c = false ∧ c ≠ 93 ∧ c ≠ 125 ∧ c ≠ 44 ∧ (c = 110 → d = .null) := by
  cases d with
  | null => exact ⟨110, _, rfl, by decide, by decide, by decide, by decide, fun _ => rfl⟩
  | bool b =>
    cases b
    · exact ⟨102, _, rfl, by decide, by decide, by decide, by decide, by simp⟩
    · exact ⟨116, _, rfl, by decide, by decide, by decide, by decide, by simp⟩
  | num n =>
    simp only [Doc.numOk] at h
    have hn := h
    simp only [Num.ok, Bool.and_eq_true, bne_iff_ne, ne_eq] at hn
    obtain ⟨c, t, hct, hc⟩ := digits_cons n.int hn.1.1.1 hn.1.1.2
    have hf := digit_facts c hc
    cases hneg : n.neg with
    | false =>
      refine ⟨c, t ++ n.fracText ++ n.expText, ?_, hf.1, hf.2.2.2.2.2.2.1, hf.2.2.2.2.2.2.2.1, hf.2.2.2.2.2.2.2.2.2.2.1, fun e => ?_⟩
      · simp [Doc.text, Num.text, Num.sign, hneg, hct]
      · exact absurd e hf.2.2.2.2.2.2.2.2.2.2.2.1
    | true => exact ⟨45, n.int ++ n.fracText ++ n.expText, by simp [Doc.text, Num.text, Num.sign, hneg], by decide, by decide, by decide, by decide, by simp⟩
  | str s => exact ⟨34, s ++ [34], rfl, by decide, by decide, by decide, by decide, by simp⟩
  | arr ds w => exact ⟨91, ds.text ++ w ++ [93], by simp [Doc.text], by decide, by decide, by decide, by decide, by simp⟩
  | obj ms w => exact ⟨123, ms.text ++ w ++ [125], by simp [Doc.text], by decide, by decide, by decide, by decide, by simp⟩

theorem Doc.plain_num (d : Doc) (h : d.plain = true) : d.numOk = true := by
  cases d <;> simp_all [Doc.plain, Doc.numOk]

theorem expectChar_ok (w : List Nat) (c : Nat) (s : List Nat) (hw : Ws w = true) (hs : isSpace c = false) : expectChar c (w ++ c :: s) = .ok () s := by
  unfold expectChar
  rw [skipWs_ws_cons w c s hw hs]
  simp

theorem expectChar_skip (c : Nat) (s : List Nat) : expectChar c (skipWs s) = expectChar c s := by
  unfold expectChar
  rw [skipWs_idem]

theorem consume_skip (c : Nat) (s : List Nat) : consumeChar c (skipWs s) = consumeChar c s := by
  unfold consumeChar
  rw [skipWs_idem]

theorem consume_not (w : List Nat) (c x : Nat) (s : List Nat) (hw : Ws w = true) (hs : isSpace x = false) (h : x ≠ c) :
    consumeChar c (w ++ x :: s) = (false, x :: s) := by
  unfold consumeChar
  rw [skipWs_ws_cons w x s hw hs]
  simp [h]

theorem Ws.nil : Ws [] = true := rfl

theorem Ws.append {a b : List Nat} (ha : Ws a = true) (hb : Ws b = true) : Ws (a ++ b) = true := by
  simp only [Ws, List.all_append, Bool.and_eq_true] at *
  exact ⟨ha, hb⟩

theorem delim_close (c : Nat) (s : List Nat) (h : c = 93 ∨ c = 125 ∨ c = 44 ∨ c = 34) : Delim (c :: s) :=
  Delim.of_cons c s (by rcases h with rfl | rfl | rfl | rfl <;> decide)

/-! ## Skipping -/

/-- What comes behind an element. -/
theorem delim_docs (w : List Nat) (hw : Ws w = true) (ds : Docs) (R : List Nat) (hR : Delim R) :
    Delim (w ++ ((if ds.isNil then [] else [44]) ++ ds.text ++ R)) := by
  refine Delim.ws ?_ w hw
  cases hn : ds.isNil with
  | true =>
    have : ds = .nil := by cases ds <;> simp_all [Docs.isNil]
    subst this
    simpa [Docs.text] using hR
  | false =>
    simp only [Bool.false_eq_true, if_false, List.cons_append, List.nil_append]
    exact delim_close 44 _ (by simp)

mutual
theorem skip_doc : ∀ (d : Doc) (w rest : List Nat) (f : Nat), d.plain = true → Ws w = true → Delim rest → 2 * d.text.length < f →
    skipValue f (w ++ (d.text ++ rest)) = .ok () rest
  | d, w, rest, 0, _, _, _, hf => by omega
  | .null, w, rest, f + 1, _, hw, _, _ => by
    have e : skipWs (w ++ (Doc.null.text ++ rest)) = 110 :: 117 :: 108 :: 108 :: rest := skipWs_ws_cons w 110 _ hw (by decide)
    rw [skipValue]
    simp only [e, List.headD_cons]
    rw [if_neg (by decide), if_neg (by decide), if_pos trivial, show (110 :: 117 :: 108 :: 108 :: rest) = [] ++ 110 :: 117 :: 108 :: 108 :: rest from rfl,
      matchNull_ok [] rest rfl]
  | .bool b, w, rest, f + 1, _, hw, hr, _ => by
    have e2 : skipWs (w ++ ((Doc.bool b).text ++ rest)) = (Doc.bool b).text ++ rest := by
      cases b
      · exact skipWs_ws_cons w 102 _ hw (by decide)
      · exact skipWs_ws_cons w 116 _ hw (by decide)
    have e3 := expectBool_ok [] rest b rfl hr
    rw [List.nil_append] at e3
    have hh : ((Doc.bool b).text ++ rest).headD 0 = (if b then 116 else 102) := by cases b <;> rfl
    rw [skipValue]
    simp only [e2, e3, hh]
    cases b <;> rfl
  | .num n, w, rest, f + 1, h, hw, hr, _ => by
    simp only [Doc.plain, Bool.and_eq_true, Bool.not_eq_true'] at h
    have hn := h.1
    simp only [Num.ok, Bool.and_eq_true, bne_iff_ne, ne_eq] at hn
    obtain ⟨c, t, hct, hc⟩ := digits_cons n.int hn.1.1.1 hn.1.1.2
    have hf := digit_facts c hc
    have hx : ((Doc.num n).text ++ rest) = c :: (t ++ n.fracText ++ n.expText ++ rest) := by
      simp [Doc.text, Num.text, Num.sign, h.2, hct]
    have e2 : skipWs (w ++ ((Doc.num n).text ++ rest)) = (Doc.num n).text ++ rest := by
      rw [hx]
      exact skipWs_ws_cons w c _ hw hf.1
    have e3 := expectNumber_ok n h.1 [] rest rfl hr
    rw [List.nil_append] at e3
    have hh : ((Doc.num n).text ++ rest).headD 0 = c := by rw [hx]; rfl
    have e4 : expectNumber ((Doc.num n).text ++ rest) = .ok n.text rest := e3
    rw [skipValue]
    simp only [e2, e4, hh, hc, if_true]
    rw [if_neg hf.2.2.2.2.2.1, if_neg (fun e => e.elim hf.2.2.2.2.2.2.2.2.2.2.2.2.1 hf.2.2.2.2.2.2.2.2.2.2.2.2.2.1),
      if_neg hf.2.2.2.2.2.2.2.2.2.2.2.1]
    rfl
  | .str s, w, rest, f + 1, h, hw, _, _ => by
    simp only [Doc.plain] at h
    have hx : ((Doc.str s).text ++ rest) = 34 :: (s ++ 34 :: rest) := by simp [Doc.text]
    have e3 := expectString_ok [] s rest rfl h
    rw [List.nil_append] at e3
    rw [skipValue]
    simp only [hx, skipWs_ws_cons w 34 _ hw (by decide), List.headD_cons, if_true, e3]
    rfl
  | .arr ds w', w, rest, f + 1, h, hw, _, hf => by
    simp only [Doc.plain, Bool.and_eq_true] at h
    have hx : ((Doc.arr ds w').text ++ rest) = 91 :: (ds.text ++ (w' ++ 93 :: rest)) := by simp [Doc.text]
    have hl : (Doc.arr ds w').text.length = ds.text.length + w'.length + 2 := by simp [Doc.text]; omega
    rw [skipValue]
    simp only [hx, skipWs_ws_cons w 91 _ hw (by decide), List.headD_cons, List.tail_cons]
    rw [if_neg (by decide), if_neg (by decide), if_neg (by decide), if_neg (by decide), if_neg (by decide), if_pos trivial]
    exact skip_docs ds [] w' rest f h.1 rfl h.2 (by omega)
  | .obj ms w', w, rest, f + 1, h, hw, _, hf => by
    simp only [Doc.plain, Bool.and_eq_true] at h
    have hx : ((Doc.obj ms w').text ++ rest) = 123 :: (ms.text ++ (w' ++ 125 :: rest)) := by simp [Doc.text]
    have hl : (Doc.obj ms w').text.length = ms.text.length + w'.length + 2 := by simp [Doc.text]; omega
    rw [skipValue]
    simp only [hx, skipWs_ws_cons w 123 _ hw (by decide), List.headD_cons, List.tail_cons]
    rw [if_neg (by decide), if_neg (by decide), if_neg (by decide), if_neg (by decide), if_pos trivial]
    exact skip_mems ms [] w' rest f h.1 rfl h.2 (by omega)
theorem skip_docs : ∀ (ds : Docs) (w w' rest : List Nat) (f : Nat), ds.plain = true → Ws w = true → Ws w' = true → 2 * ds.text.length + 1 < f →
    skipElems f (skipWs (w ++ (ds.text ++ (w' ++ 93 :: rest)))) = .ok () rest
  | ds, w, w', rest, 0, _, _, _, hf => by omega
  | .nil, w, w', rest, f + 1, _, hw, hw', _ => by
    have e : skipWs (w ++ (Docs.nil.text ++ (w' ++ 93 :: rest))) = 93 :: rest := by
      rw [skipWs_ws _ _ hw]
      exact skipWs_ws_cons w' 93 rest hw' (by decide)
    rw [e, skipElems]
    simp only [List.headD_cons, if_true]
    exact expectChar_ok [] 93 rest rfl (by decide)
  | .cons w1 d w2 ds, w, w', rest, f + 1, h, hw, hw', hf => by
    simp only [Docs.plain, Bool.and_eq_true] at h
    obtain ⟨⟨⟨h1, h2⟩, h3⟩, h4⟩ := h
    obtain ⟨c, t, hct, hs, h93, h125, h44, -⟩ := d.text_head (d.plain_num h2)
    have hlen : (Docs.cons w1 d w2 ds).text.length = w1.length + (d.text.length + (w2.length + ((if ds.isNil = true then ([] : List Nat) else [44]).length + ds.text.length))) := by
      rw [Docs.text_cons]; simp
    have hd : d.text.length = t.length + 1 := by rw [hct]; rfl
    have e : skipWs (w ++ ((Docs.cons w1 d w2 ds).text ++ (w' ++ 93 :: rest))) =
        [] ++ (d.text ++ (w2 ++ ((if ds.isNil then [] else [44]) ++ ds.text ++ (w' ++ 93 :: rest)))) := by
      rw [skipWs_ws _ _ hw, Docs.text_cons, List.append_assoc, skipWs_ws _ _ h1, hct]
      simp only [List.cons_append, List.append_assoc, List.nil_append]
      exact skipWs_cons c _ hs
    have hR : Delim (w' ++ 93 :: rest) := Delim.ws (delim_close 93 _ (by simp)) w' hw'
    have e1 := skip_doc d [] (w2 ++ ((if ds.isNil then [] else [44]) ++ ds.text ++ (w' ++ 93 :: rest))) f h2 rfl
      (delim_docs w2 h3 ds _ hR) (by omega)
    rw [e, skipElems, e1]
    have hh : ¬ ([] ++ (d.text ++ (w2 ++ ((if ds.isNil then [] else [44]) ++ ds.text ++ (w' ++ 93 :: rest))))).headD 0 = 93 := by
      rw [hct]; exact h93
    rw [if_neg hh]
    simp only [G.bind, consume_skip]
    cases hn : ds.isNil with
    | true =>
      have : ds = .nil := by cases ds <;> simp_all [Docs.isNil]
      subst this
      simp only [if_true, List.nil_append, Docs.text]
      rw [← List.append_assoc, consume_not (w2 ++ w') 44 93 rest (Ws.append h3 hw') (by decide) (by decide)]
      simp only [Bool.false_eq_true, if_false]
      exact expectChar_ok [] 93 rest rfl (by decide)
    | false =>
      simp only [Bool.false_eq_true, if_false, List.cons_append, List.nil_append]
      rw [consume_this w2 44 _ h3 (by decide)]
      simp only [if_true]
      have := skip_docs ds [] w' rest f h4 rfl hw' (by omega)
      exact this
theorem skip_mems : ∀ (ms : Mems) (w w' rest : List Nat) (f : Nat), ms.plain = true → Ws w = true → Ws w' = true → 2 * ms.text.length + 1 < f →
    skipMembers f (skipWs (w ++ (ms.text ++ (w' ++ 125 :: rest)))) = .ok () rest
  | ms, w, w', rest, 0, _, _, _, hf => by omega
  | .nil, w, w', rest, f + 1, _, hw, hw', _ => by
    have e : skipWs (w ++ (Mems.nil.text ++ (w' ++ 125 :: rest))) = 125 :: rest := by
      rw [skipWs_ws _ _ hw]
      exact skipWs_ws_cons w' 125 rest hw' (by decide)
    rw [e, skipMembers]
    simp only [List.headD_cons, if_true]
    exact expectChar_ok [] 125 rest rfl (by decide)
  | .cons w1 key w2 w3 d w4 comma ms, w, w', rest, f + 1, h, hw, hw', hf => by
    simp only [Mems.plain, Bool.and_eq_true, beq_iff_eq] at h
    obtain ⟨⟨⟨⟨⟨⟨⟨h1, hk⟩, h2⟩, h3⟩, hd⟩, h4⟩, hc⟩, hms⟩ := h
    have hlen := congrArg List.length (Mems.text_cons w1 key w2 w3 d w4 comma ms)
    simp only [List.length_append, List.length_cons] at hlen
    have e : skipWs (w ++ ((Mems.cons w1 key w2 w3 d w4 comma ms).text ++ (w' ++ 125 :: rest))) =
        34 :: (key ++ 34 :: (w2 ++ 58 :: (w3 ++ (d.text ++ (w4 ++ ((if comma then [44] else []) ++ (ms.text ++ (w' ++ 125 :: rest)))))))) := by
      rw [skipWs_ws _ _ hw, Mems.text_cons, List.append_assoc, skipWs_ws _ _ h1]
      simp only [List.cons_append, List.append_assoc]
      exact skipWs_cons 34 _ (by decide)
    rw [e, skipMembers, List.headD_cons, if_neg (show ¬ (34 : Nat) = 125 by decide)]
    have e1 := expectString_ok [] key (w2 ++ 58 :: (w3 ++ (d.text ++ (w4 ++ ((if comma then [44] else []) ++ (ms.text ++ (w' ++ 125 :: rest)))))))
      rfl hk
    rw [List.nil_append] at e1
    rw [e1]
    simp only [G.bind, expectChar_skip]
    rw [expectChar_ok w2 58 _ h2 (by decide)]
    simp only []
    cases hn : ms.isNil with
    | true =>
      have : ms = .nil := by cases ms <;> simp_all [Mems.isNil]
      subst this
      rw [hn] at hc
      simp only [Bool.not_true] at hc
      subst hc
      have hR : Delim (w4 ++ ([] ++ ([] ++ (w' ++ 125 :: rest)))) := Delim.ws (Delim.ws (delim_close 125 _ (by simp)) w' hw') w4 h4
      simp only [Bool.false_eq_true, if_false, Mems.text]
      rw [skip_doc d w3 _ f hd h3 hR (by omega)]
      simp only [consume_skip, List.nil_append]
      rw [← List.append_assoc, consume_not (w4 ++ w') 44 125 rest (Ws.append h4 hw') (by decide) (by decide)]
      simp only [Bool.false_eq_true, if_false]
      exact expectChar_ok [] 125 rest rfl (by decide)
    | false =>
      rw [hn] at hc
      simp only [Bool.not_false] at hc
      subst hc
      have hR : Delim (w4 ++ ([44] ++ (ms.text ++ (w' ++ 125 :: rest)))) := Delim.ws (delim_close 44 _ (by simp)) w4 h4
      simp only [if_true]
      rw [skip_doc d w3 _ f hd h3 hR (by omega)]
      simp only [consume_skip, List.cons_append, List.nil_append]
      rw [consume_this w4 44 _ h4 (by decide)]
      simp only [if_true]
      exact skip_mems ms [] w' rest f hms rfl hw' (by omega)
end

/-! ## Reading -/

theorem expectBool_skip (s : List Nat) : expectBool (skipWs s) = expectBool s := by unfold expectBool; rw [skipWs_idem]
theorem expectString_skip (s : List Nat) : expectString (skipWs s) = expectString s := by unfold expectString; rw [skipWs_idem]
theorem expectNumber_skip (s : List Nat) : expectNumber (skipWs s) = expectNumber s := by unfold expectNumber; simp only [skipWs_idem]
theorem matchNull_skip (s : List Nat) : matchNull (skipWs s) = matchNull s := by unfold matchNull; rw [skipWs_idem]

/-- White space in front of a value does not matter. -/
theorem parse_skip (frac : List Nat → Int) (t : Ty) (s : List Nat) : parse frac t (skipWs s) = parse frac t s := by
  cases t with
  | bool => simp only [parse, expectBool_skip]
  | int k => simp only [parse, expectInteger, expectNumber_skip]
  | str => simp only [parse, expectString_skip]
  | tuple ts => simp only [parse, expectChar_skip]
  | opt t => simp only [parse, matchNull_skip]
  | struct fs p => simp only [parse, expectChar_skip]

/-- Optionals around a type whose value does not begin with `n`. -/
theorem parse_wrap (frac : List Nat → Int) (v : Val) (r : List Nat) : ∀ (t : Ty) (s : List Nat), (skipWs s).head? ≠ some 110 →
    parse frac t.core s = .ok v r → parse frac t s = .ok (t.wrap v) r
  | .opt t, s, h, hp => by
    simp only [parse, matchNull_not s h, Bool.false_eq_true, if_false, parse_skip]
    rw [parse_wrap frac v r t s h (by simpa [Ty.core] using hp)]
    rfl
  | .bool, s, h, hp => hp
  | .int k, s, h, hp => hp
  | .str, s, h, hp => hp
  | .tuple ts, s, h, hp => hp
  | .struct fs p, s, h, hp => hp

theorem parseField_find (frac : List Nat → Int) (p : Bool) (key : List Nat) (obj : List Val) (s : List Nat) : ∀ (fs : Fields) (i : Nat),
    parseField frac fs p i key obj s = match fs.find i key with
      | some (j, t) => (parse frac t s).bind fun v r => .ok (obj.set j v) r
      | none => if p then (skipValue (2 * s.length + 1) s).bind fun _ r => .ok obj r else .raised
  | .nil, i => by simp only [parseField, Fields.find]
  | .cons n t v fs, i => by
    rw [parseField, Fields.find]
    by_cases h : n = key
    · rw [if_pos h, if_pos h]
    · rw [if_neg h, if_neg h]
      exact parseField_find frac p key obj s fs (i + 1)

def Mems.count : Mems → Nat
  | .nil => 0
  | .cons _ _ _ _ _ _ _ ms => ms.count + 1

theorem Mems.count_le : ∀ ms : Mems, ms.count ≤ ms.text.length
  | .nil => Nat.le_refl _
  | .cons w1 key w2 w3 d w4 comma ms => by
    have := ms.count_le
    have hlen := congrArg List.length (Mems.text_cons w1 key w2 w3 d w4 comma ms)
    simp only [List.length_append, List.length_cons] at hlen
    simp only [Mems.count]
    omega

theorem members_skip (field : List Nat → List Val → List Nat → G (List Val)) (f : Nat) (obj : List Val) (s : List Nat) :
    members field f obj (skipWs s) = members field f obj s := by
  cases f with
  | zero => rfl
  | succ f => simp only [members, skipWs_idem]

theorem members_end (field : List Nat → List Val → List Nat → G (List Val)) (f : Nat) (obj : List Val) (w rest : List Nat) (hw : Ws w = true)
    (hf : 0 < f) : members field f obj (w ++ 125 :: rest) = .ok obj (125 :: rest) := by
  cases f with
  | zero => omega
  | succ f =>
    rw [members, skipWs_ws_cons w 125 rest hw (by decide)]
    rfl

/-- The white space in the members is white space. -/
def Mems.spaced : Mems → Bool
  | .nil => true
  | .cons w1 _ _ _ _ _ _ ms => Ws w1 && ms.spaced

theorem Mems.vals_spaced (fs : Fields) (p : Bool) : ∀ (ms : Mems) (obj vs : List Val), ms.vals fs p obj = some vs → ms.spaced = true
  | .nil, _, _, _ => rfl
  | .cons w1 key w2 w3 d w4 comma ms, obj, vs, h => by
    rw [Mems.vals] at h
    split at h
    · rename_i hw
      simp only [Bool.and_eq_true] at hw
      simp only [Mems.spaced, Bool.and_eq_true]
      refine ⟨hw.1.1.1.1, ?_⟩
      split at h
      · rename_i i t hf
        cases hd : d.val t with
        | none => simp [hd] at h
        | some v => rw [hd] at h; exact ms.vals_spaced fs p _ vs h
      · split at h
        · exact ms.vals_spaced fs p _ vs h
        · exact absurd h (by simp)
    · exact absurd h (by simp)

/-- What follows a member without a comma is not a comma. -/
theorem next_member (ms : Mems) (w' : List Nat) (e : Nat) (rest : List Nat) (hs : ms.spaced = true) (hw' : Ws w' = true) (he : e = 125 ∨ e = 34) :
    ∃ w c r, ms.text ++ (w' ++ e :: rest) = w ++ c :: r ∧ Ws w = true ∧ isSpace c = false ∧ c ≠ 44 ∧ (c = 125 ∨ c = 34) := by
  cases ms with
  | nil => exact ⟨w', e, rest, rfl, hw', by rcases he with rfl | rfl <;> decide, by rcases he with rfl | rfl <;> decide, he⟩
  | cons w1 key w2 w3 d w4 comma ms =>
    simp only [Mems.spaced, Bool.and_eq_true] at hs
    refine ⟨w1, 34, (key ++ 34 :: (w2 ++ 58 :: (w3 ++ (d.text ++ (w4 ++ ((if comma then [44] else []) ++ ms.text)))))) ++ (w' ++ e :: rest),
      ?_, hs.1, by decide, by decide, .inr rfl⟩
    rw [Mems.text_cons]
    simp only [List.append_assoc, List.cons_append]

theorem consume_rest (comma : Bool) (w : List Nat) (ms : Mems) (w' : List Nat) (e : Nat) (rest : List Nat) (hw : Ws w = true) (hs : ms.spaced = true) (hw' : Ws w' = true) (he : e = 125 ∨ e = 34) :
    skipWs (consumeChar 44 (w ++ ((if comma then [44] else []) ++ (ms.text ++ (w' ++ e :: rest))))).2 = skipWs (ms.text ++ (w' ++ e :: rest)) := by
  cases comma with
  | true =>
    simp only [if_true, List.cons_append, List.nil_append]
    rw [consume_this w 44 _ hw (by decide)]
  | false =>
    obtain ⟨v, c, r, ev, hv, hc, h44, -⟩ := next_member ms w' e rest hs hw' he
    simp only [Bool.false_eq_true, if_false, List.nil_append]
    rw [ev, ← List.append_assoc, consume_not (w ++ v) 44 c r (Ws.append hw hv) hc h44, skipWs_ws_cons v c r hv hc]
    exact skipWs_cons c r hc

theorem delim_mems (comma : Bool) (w : List Nat) (ms : Mems) (w' : List Nat) (e : Nat) (rest : List Nat) (hw : Ws w = true) (hs : ms.spaced = true) (hw' : Ws w' = true) (he : e = 125 ∨ e = 34) :
    Delim (w ++ ((if comma then [44] else []) ++ (ms.text ++ (w' ++ e :: rest)))) := by
  refine Delim.ws ?_ w hw
  cases comma with
  | true => exact delim_close 44 _ (by simp)
  | false =>
    obtain ⟨v, c, r, ev, hv, hc, h44, h⟩ := next_member ms w' e rest hs hw' he
    simp only [Bool.false_eq_true, if_false, List.nil_append]
    rw [ev]
    exact Delim.ws (delim_close c r (by rcases h with rfl | rfl <;> simp)) v hv

theorem Doc.val_num (d : Doc) (t : Ty) (v : Val) (h : d.val t = some v) : d.numOk = true := by
  cases d with
  | num n =>
    simp only [Doc.val] at h
    split at h
    · simp only [Doc.numOk]
      by_cases hi : (n.ok && n.frac.isNone && n.exp.isNone) = true
      · simp only [Bool.and_eq_true] at hi
        exact hi.1.1
      · rw [Num.integer, if_neg hi] at h
        simp at h
    · exact absurd h (by simp)
  | _ => rfl

mutual
theorem read_doc (frac : List Nat → Int) : ∀ (d : Doc) (t : Ty) (v : Val) (w rest : List Nat), d.val t = some v → Ws w = true → Delim rest →
    parse frac t (w ++ (d.text ++ rest)) = .ok v rest
  | .null, t, v, w, rest, h, hw, _ => by
    cases t with
    | opt t =>
      simp only [Doc.val, Ty.isOpt, if_true, Option.some.injEq] at h
      subst h
      simp only [parse]
      rw [show w ++ (Doc.null.text ++ rest) = w ++ 110 :: 117 :: 108 :: 108 :: rest from rfl, matchNull_ok w rest hw]
      rfl
    | _ => simp [Doc.val, Ty.isOpt] at h
  | .bool b, t, v, w, rest, h, hw, hr => by
    simp only [Doc.val] at h
    split at h
    · rename_i hc
      simp only [Option.some.injEq] at h
      subst h
      refine parse_wrap frac _ _ t _ ?_ ?_
      · cases b
        · have : skipWs (w ++ ((Doc.bool false).text ++ rest)) = _ := skipWs_ws_cons w 102 _ hw (by decide)
          rw [this]; simp
        · have : skipWs (w ++ ((Doc.bool true).text ++ rest)) = _ := skipWs_ws_cons w 116 _ hw (by decide)
          rw [this]; simp
      · rw [hc, parse, ← List.append_assoc, expectBool_ok w rest b hw hr]
        rfl
    · exact absurd h (by simp)
  | .num n, t, v, w, rest, h, hw, hr => by
    have hok := (Doc.num n).val_num t v h
    obtain ⟨c, s, hcs, hsp, -, -, -, h110⟩ := (Doc.num n).text_head hok
    simp only [Doc.val] at h
    split at h
    · rename_i k hc
      cases hi : n.integer with
      | none => simp [hi] at h
      | some x =>
        rw [hi] at h
        simp only [Option.bind_some] at h
        split at h
        · rename_i hx
          simp only [Bool.and_eq_true, decide_eq_true_eq] at hx
          simp only [Option.some.injEq] at h
          subst h
          refine parse_wrap frac _ _ t _ ?_ ?_
          · rw [hcs, List.cons_append, skipWs_ws_cons w c _ hw hsp]
            intro e
            simp at e
            exact absurd (h110 e) (by simp)
          · have e1 := expectNumber_ok n hok w rest hw hr
            rw [List.append_assoc] at e1
            rw [hc, parse, expectInteger, show (Doc.num n).text = n.text from by simp [Doc.text], e1]
            simp only [G.bind, strtod_integer frac n x hi hx.2, hx.1, if_true]
        · exact absurd h (by simp)
    · exact absurd h (by simp)
  | .str s, t, v, w, rest, h, hw, _ => by
    simp only [Doc.val] at h
    split at h
    · rename_i hc
      split at h
      · rename_i hs
        simp only [Option.some.injEq] at h
        subst h
        have hx : ((Doc.str s).text ++ rest) = 34 :: (s ++ 34 :: rest) := by simp [Doc.text]
        rw [hx]
        refine parse_wrap frac _ _ t _ ?_ ?_
        · rw [skipWs_ws_cons w 34 _ hw (by decide)]; simp
        · rw [hc, parse, expectString_ok w s rest hw hs]
          rfl
      · exact absurd h (by simp)
    · exact absurd h (by simp)
  | .arr ds w', t, v, w, rest, h, hw, _ => by
    simp only [Doc.val] at h
    split at h
    · rename_i ts hc
      split at h
      · rename_i hw'
        cases hv : ds.vals ts with
        | none => simp [hv] at h
        | some vs =>
          rw [hv] at h
          simp only [Option.bind_some, Option.some.injEq] at h
          subst h
          have hx : ((Doc.arr ds w').text ++ rest) = 91 :: (ds.text ++ (w' ++ 93 :: rest)) := by simp [Doc.text]
          rw [hx]
          refine parse_wrap frac _ _ t _ ?_ ?_
          · rw [skipWs_ws_cons w 91 _ hw (by decide)]; simp
          · obtain ⟨R', e1, e2⟩ := read_docs frac ds ts vs true [] (w' ++ 93 :: rest) hv rfl (Delim.ws (delim_close 93 _ (by simp)) w' hw')
            have e3 : expectChar 93 R' = .ok () rest := by
              rw [← expectChar_skip, e2, expectChar_skip, expectChar_ok w' 93 rest hw' (by decide)]
            rw [hc, parse, expectChar_ok w 91 _ hw (by decide)]
            simp only [Bool.true_or, if_true, List.nil_append] at e1
            simp only [G.bind, e1, e3]
      · exact absurd h (by simp)
    · exact absurd h (by simp)
  | .obj ms w', t, v, w, rest, h, hw, _ => by
    simp only [Doc.val] at h
    split at h
    · rename_i fs p hc
      split at h
      · rename_i hw'
        cases hv : ms.vals fs p fs.inits with
        | none => simp [hv] at h
        | some vs =>
          rw [hv] at h
          simp only [Option.bind_some, Option.some.injEq] at h
          subst h
          have hx : ((Doc.obj ms w').text ++ rest) = 123 :: (ms.text ++ (w' ++ 125 :: rest)) := by simp [Doc.text]
          rw [hx]
          refine parse_wrap frac _ _ t _ ?_ ?_
          · rw [skipWs_ws_cons w 123 _ hw (by decide)]; simp
          · rw [hc, parse, expectChar_ok w 123 _ hw (by decide)]
            simp only [G.bind]
            have hc := ms.count_le
            rw [read_mems frac fs p ms fs.inits vs _ w' 125 rest hv hw' (.inl rfl) (by rw [List.length_append]; omega),
              members_end _ _ vs w' rest hw' (by rw [List.length_append]; omega)]
            simp only []
            have := expectChar_ok [] 125 rest rfl (by decide)
            rw [List.nil_append] at this
            rw [this]
      · exact absurd h (by simp)
    · exact absurd h (by simp)
theorem read_docs (frac : List Nat → Int) : ∀ (ds : Docs) (ts : Tys) (vs : List Val) (first : Bool) (w R : List Nat), ds.vals ts = some vs →
    Ws w = true → Delim R →
    ∃ R', parseElems frac first ts (w ++ ((if first || ds.isNil then [] else [44]) ++ (ds.text ++ R))) = .ok vs R' ∧ skipWs R' = skipWs R
  | .nil, .nil, vs, first, w, R, h, hw, _ => by
    simp only [Docs.vals, Option.some.injEq] at h
    subst h
    exact ⟨_, rfl, by simp [Docs.isNil, Docs.text, skipWs_ws _ _ hw]⟩
  | .nil, .cons _ _, _, _, _, _, h, _, _ => by simp [Docs.vals] at h
  | .cons _ _ _ _, .nil, _, _, _, _, h, _, _ => by simp [Docs.vals] at h
  | .cons w1 d w2 ds, .cons t ts, vs, first, w, R, h, hw, hR => by
    rw [Docs.vals] at h
    split at h
    · rename_i hws
      simp only [Bool.and_eq_true] at hws
      cases hd : d.val t with
      | none => simp [hd] at h
      | some v =>
        cases hds : ds.vals ts with
        | none => simp [hd, hds] at h
        | some vs' =>
          simp only [hd, hds, Option.bind_some, Option.some.injEq] at h
          subst h
          obtain ⟨R', e1, e2⟩ := read_docs frac ds ts vs' false w2 R hds hws.2 hR
          simp only [Bool.false_or] at e1
          have hdl := delim_docs w2 hws.2 ds R hR
          rw [List.append_assoc] at hdl
          have step : ∀ w0, Ws w0 = true → parse frac t (w0 ++ ((Docs.cons w1 d w2 ds).text ++ R)) =
              .ok v (w2 ++ ((if ds.isNil then [] else [44]) ++ (ds.text ++ R))) := by
            intro w0 hw0
            have := read_doc frac d t v (w0 ++ w1) _ hd (Ws.append hw0 hws.1) hdl
            rw [Docs.text_cons]
            simp only [List.append_assoc] at this ⊢
            exact this
          refine ⟨R', ?_, e2⟩
          cases first with
          | true =>
            simp only [Bool.true_or, if_true, List.nil_append, parseElems, G.bind]
            rw [step w hw]
            simp only [e1]
          | false =>
            simp only [Docs.isNil, Bool.or_self, Bool.false_eq_true, if_false, List.cons_append, List.nil_append, parseElems]
            rw [expectChar_ok w 44 _ hw (by decide)]
            simp only [G.bind]
            have := step [] rfl
            rw [List.nil_append] at this
            rw [this]
            simp only [e1]
    · exact absurd h (by simp)
theorem read_mems (frac : List Nat → Int) (fs : Fields) (p : Bool) : ∀ (ms : Mems) (obj vs : List Val) (f : Nat) (w' : List Nat) (e : Nat) (rest : List Nat),
    ms.vals fs p obj = some vs → Ws w' = true → (e = 125 ∨ e = 34) → ms.count < f →
    members (fun key obj r => parseField frac fs p 0 key obj r) f obj (ms.text ++ (w' ++ e :: rest)) =
      members (fun key obj r => parseField frac fs p 0 key obj r) (f - ms.count) vs (w' ++ e :: rest)
  | ms, obj, vs, 0, w', e, rest, _, _, _, hf => by omega
  | .nil, obj, vs, f + 1, w', e, rest, h, hw', _, _ => by
    simp only [Mems.vals, Option.some.injEq] at h
    subst h
    rfl
  | .cons w1 key w2 w3 d w4 comma ms, obj, vs, f + 1, w', e, rest, h, hw', he, hf => by
    have hsp := Mems.vals_spaced fs p _ obj vs h
    simp only [Mems.spaced, Bool.and_eq_true] at hsp
    rw [Mems.vals] at h
    split at h
    · rename_i hws
      simp only [Bool.and_eq_true] at hws
      obtain ⟨⟨⟨⟨h1, hk⟩, h2⟩, h3⟩, h4⟩ := hws
      have ev : skipWs ((Mems.cons w1 key w2 w3 d w4 comma ms).text ++ (w' ++ e :: rest)) =
          34 :: (key ++ 34 :: (w2 ++ 58 :: (w3 ++ (d.text ++ (w4 ++ ((if comma then [44] else []) ++ (ms.text ++ (w' ++ e :: rest)))))))) := by
        rw [Mems.text_cons, List.append_assoc, skipWs_ws _ _ h1]
        simp only [List.cons_append, List.append_assoc]
        exact skipWs_cons 34 _ (by decide)
      have e1 := expectString_ok [] key (w2 ++ 58 :: (w3 ++ (d.text ++ (w4 ++ ((if comma then [44] else []) ++ (ms.text ++ (w' ++ e :: rest)))))))
        rfl hk
      rw [List.nil_append] at e1
      have hdl := delim_mems comma w4 ms w' e rest h4 hsp.2 hw' he
      have next : ∀ obj', ms.vals fs p obj' = some vs →
          members (fun key obj r => parseField frac fs p 0 key obj r) f obj'
            (consumeChar 44 (w4 ++ ((if comma then [44] else []) ++ (ms.text ++ (w' ++ e :: rest))))).2 =
          members (fun key obj r => parseField frac fs p 0 key obj r) (f + 1 - (ms.count + 1)) vs (w' ++ e :: rest) := by
        intro obj' h'
        rw [← members_skip, consume_rest comma w4 ms w' e rest h4 hsp.2 hw' he, members_skip]
        rw [read_mems frac fs p ms obj' vs f w' e rest h' hw' he (by simp only [Mems.count] at hf; omega), Nat.add_sub_add_right]
      rw [members, ev, List.headD_cons, if_neg (show ¬ (34 : Nat) = 125 by decide), e1]
      simp only [G.bind]
      rw [expectChar_ok w2 58 _ h2 (by decide)]
      simp only []
      rw [parseField_find]
      split at h
      · rename_i i t hfind
        rw [hfind]
        simp only []
        cases hd : d.val t with
        | none => simp [hd] at h
        | some v =>
          rw [hd] at h
          rw [read_doc frac d t v w3 _ hd h3 hdl]
          exact next _ h
      · rename_i hfind
        rw [hfind]
        simp only []
        split at h
        · rename_i hp
          simp only [Bool.and_eq_true] at hp
          rw [if_pos hp.1, skip_doc d w3 _ _ hp.2 h3 hdl (by simp only [List.length_append]; omega)]
          exact next _ h
        · exact absurd h (by simp)
    · exact absurd h (by simp)
end

end Verif.JsonVal
