import Verif.Common.Out
/-!
# JSON strings (`src/cxy/stdlib/json.cxy`)

`toJSON` for strings (14-16) and `JSONParser.expectString` (121-145) as used by `fromString` (374-378), which parses the
NUL-terminated contents of a `String`.  Line and column numbers, which only appear in messages, are left out.  Offsets are
`u32` in the source; texts are taken to be shorter than 2^32 bytes.
-/
namespace Verif.Json

/-- `os << '"' << it << '"'` for a non-null string (json.cxy 15). -/
def toJSON (s : List Nat) : List Nat := 34 :: s ++ [34]

/-- `data.[i]`: the bytes of the text and the NUL behind them. -/
def rd (d : List Nat) (i : Nat) : Out Nat :=
  if i < d.length then .ok (d[i]?.getD 0) else if i = d.length then .ok 0 else .ub

/-- json.cxy 93-100 `advance` looks at the next byte for a line break. -/
def advance (d : List Nat) (off : Nat) : Out Nat := (rd d (off + 1)).bind fun _ => .ok (off + 1)

/-- builtins.cxy 22 -/
def isSpace (c : Nat) : Bool := c = 32 || (9 ≤ c && c ≤ 13)

/-- json.cxy 102-106 `skipWhitespace` -/
def skipWs (d : List Nat) : Nat → Nat → Out Nat
  | 0, _ => .diverge
  | f + 1, off =>
    if off < d.length then
      (rd d off).bind fun c => if isSpace c then (advance d off).bind fun o => skipWs d f o else .ok off
    else .ok off

/-- json.cxy 130-139: the scan for the end of the string. -/
def scan (d : List Nat) : Nat → Nat → Out Nat
  | 0, _ => .diverge
  | f + 1, off =>
    if off < d.length then
      (rd d off).bind fun c =>
        if c = 0 then .ok off
        else (if c = 92 then (rd d (off + 1)).bind fun n => .ok (decide (n = 34)) else .ok false).bind fun esc =>
          if esc then (advance d off).bind fun o => (advance d o).bind fun o => scan d f o
          else if c = 34 then .ok off
          else (advance d off).bind fun o => scan d f o
    else .ok off

/-- json.cxy 121-145 `expectString`: `none` is a raised error; otherwise the string and the new offset. -/
def expectString (d : List Nat) (off : Nat) : Out (Option (List Nat × Nat)) :=
  (skipWs d (d.length + 1) off).bind fun off =>
  (rd d off).bind fun c =>
    if c ≠ 34 then .ok none
    else (advance d off).bind fun start =>
      (scan d (d.length + 1) start).bind fun stop =>
      (rd d stop).bind fun q =>
        if q ≠ 34 then .ok none
        else (advance d stop).bind fun next => .ok (some ((d.drop start).take (stop - start), next))

/-! ## Which strings survive -/

/-- No NUL, every quote directly behind a backslash, and no backslash at the end. -/
def Survives (s : List Nat) : Prop :=
  0 ∉ s ∧ (∀ a b, s = a ++ 34 :: b → a.getLast? = some 92) ∧ s.getLast? ≠ some 92

theorem rd_in (d : List Nat) (i : Nat) (h : i < d.length) : rd d i = .ok d[i] := by
  simp [rd, h]

theorem rd_append (a b : List Nat) (i : Nat) (hi : a.length = i) : rd (a ++ b) i = .ok (b.headD 0) := by
  subst hi
  cases b <;> simp [rd]

theorem advance_ok (d : List Nat) (i : Nat) (h : i < d.length) : advance d i = .ok (i + 1) := by
  unfold advance rd
  by_cases h1 : i + 1 < d.length
  · rw [if_pos h1]; rfl
  · rw [if_neg h1, if_pos (by omega)]; rfl

/-- Where the scan stops, as a function of the bytes ahead (the text ends after them). -/
def stop : List Nat → Nat
  | [] => 0
  | [c] => if c = 0 ∨ c = 34 then 0 else 1
  | c :: n :: r => if c = 0 then 0 else if c = 92 ∧ n = 34 then 2 + stop r else if c = 34 then 0 else 1 + stop (n :: r)

theorem scan_stop : ∀ (f : Nat) (a b : List Nat), b.length < f → scan (a ++ b) f a.length = .ok (a.length + stop b)
  | 0, _, _, h => by omega
  | f + 1, a, [], _ => by simp [scan, stop]
  | f + 1, a, [c], h => by
    rw [scan, if_pos (by simp), show rd (a ++ [c]) a.length = .ok c from rd_append a [c] _ rfl, Out.bind_ok]
    by_cases h0 : c = 0
    · rw [if_pos h0]; simp [stop, h0]
    · rw [if_neg h0]
      by_cases h34 : c = 34
      · subst h34; simp [stop]
      · have hadv : advance (a ++ [c]) a.length = .ok (a.length + 1) := advance_ok _ _ (by simp)
        have hn : (if c = 92 then (rd (a ++ [c]) (a.length + 1)).bind fun n => Out.ok (decide (n = 34)) else .ok false) = .ok false := by
          split
          · rw [show rd (a ++ [c]) (a.length + 1) = .ok 0 by simp [rd]]; rfl
          · rfl
        rw [hn, Out.bind_ok]
        simp only [Bool.false_eq_true, if_false]
        rw [if_neg h34, hadv, Out.bind_ok]
        have := scan_stop f (a ++ [c]) [] (by simp at h ⊢; omega)
        simp only [List.append_nil, List.length_append, List.length_singleton] at this
        rw [this]
        simp [stop, h0, h34]
  | f + 1, a, c :: n :: r, h => by
    have hlen : a.length < (a ++ c :: n :: r).length := by simp
    have hn1 : rd (a ++ c :: n :: r) (a.length + 1) = .ok n := by
      have := rd_append (a ++ [c]) (n :: r) (a.length + 1) (by simp)
      simpa using this
    rw [scan, if_pos hlen, show rd (a ++ c :: n :: r) a.length = .ok c from rd_append a _ _ rfl, Out.bind_ok]
    by_cases h0 : c = 0
    · rw [if_pos h0]; simp [stop, h0]
    · rw [if_neg h0]
      by_cases he : c = 92 ∧ n = 34
      · obtain ⟨rfl, rfl⟩ := he
        rw [if_pos rfl, hn1, Out.bind_ok, Out.bind_ok, if_pos (by simp), advance_ok _ _ hlen, Out.bind_ok,
          advance_ok _ _ (by simp), Out.bind_ok]
        have := scan_stop f (a ++ [92, 34]) r (by simp at h ⊢; omega)
        simp only [List.append_assoc, List.cons_append, List.nil_append, List.length_append, List.length_cons, List.length_nil] at this
        rw [show a.length + 1 + 1 = a.length + (0 + 1 + 1) by omega, this]
        simp [stop]; omega
      · have hesc : (if c = 92 then (rd (a ++ c :: n :: r) (a.length + 1)).bind fun m => Out.ok (decide (m = 34)) else .ok false) = .ok false := by
          split
          · rename_i hc
            rw [hn1, Out.bind_ok]
            simp only [Out.ok.injEq, decide_eq_false_iff_not]
            exact fun e => he ⟨hc, e⟩
          · rfl
        rw [hesc, Out.bind_ok]
        simp only [Bool.false_eq_true, if_false]
        by_cases h34 : c = 34
        · rw [if_pos h34]; subst h34; simp [stop]
        · rw [if_neg h34, advance_ok _ _ hlen, Out.bind_ok]
          have := scan_stop f (a ++ [c]) (n :: r) (by simp at h ⊢; omega)
          simp only [List.append_assoc, List.cons_append, List.nil_append, List.length_append, List.length_cons, List.length_nil] at this
          rw [show a.length + 1 = a.length + (0 + 1) by omega, this]
          simp [stop, h0, he, h34]; omega

theorem stop_le : ∀ b, stop b ≤ b.length
  | [] => by simp [stop]
  | [c] => by simp [stop]; split <;> omega
  | c :: n :: r => by
    have h1 := stop_le r
    have h2 := stop_le (n :: r)
    simp only [stop, List.length_cons] at *
    split
    · omega
    · split
      · omega
      · split <;> omega

theorem survives_cons (c : Nat) (s : List Nat) (h : Survives (c :: s)) (hc : ¬ (c = 92 ∧ s.head? = some 34)) : Survives s := by
  obtain ⟨h1, h2, h3⟩ := h
  refine ⟨fun h => h1 (by simp [h]), fun a b e => ?_, fun e => h3 ?_⟩
  · have := h2 (c :: a) b (by rw [e]; rfl)
    cases a with
    | nil =>
      exfalso
      simp at this
      subst this
      exact hc ⟨rfl, by rw [e]; rfl⟩
    | cons x a => rw [List.getLast?_cons_cons] at this; exact this
  · cases s with
    | nil => simp at e
    | cons x s => rw [List.getLast?_cons_cons]; exact e

theorem survives_pair (s : List Nat) (h : Survives (92 :: 34 :: s)) : Survives s := by
  obtain ⟨h1, h2, h3⟩ := h
  refine ⟨fun h => h1 (by simp [h]), fun a b e => ?_, fun e => h3 ?_⟩
  · have := h2 (92 :: 34 :: a) b (by rw [e]; rfl)
    cases a with
    | nil => simp at this
    | cons x a => rw [List.getLast?_cons_cons, List.getLast?_cons_cons] at this; exact this
  · cases s with
    | nil => simp at e
    | cons x s => rw [List.getLast?_cons_cons, List.getLast?_cons_cons]; exact e

/-- The scan reaches exactly the closing quote when the string survives... -/
theorem stop_survives : ∀ (n : Nat) (s : List Nat), s.length ≤ n → Survives s → stop (s ++ [34]) = s.length
  | _, [], _, _ => by simp [stop]
  | n + 1, [c], _, h => by
    obtain ⟨h1, h2, h3⟩ := h
    have h34 : c ≠ 34 := by
      rintro rfl
      simpa using h2 [] [] rfl
    have h0 : c ≠ 0 := by rintro rfl; simp at h1
    have h92 : c ≠ 92 := by rintro rfl; simp at h3
    simp [stop, h0, h92, h34]
  | n + 1, c :: d :: s, hl, h => by
    have h0 : c ≠ 0 := by rintro rfl; exact h.1 (by simp)
    have h34 : c ≠ 34 := by
      rintro rfl
      simpa using h.2.1 [] (d :: s) rfl
    simp only [List.cons_append, stop]
    rw [if_neg h0]
    by_cases he : c = 92 ∧ d = 34
    · obtain ⟨rfl, rfl⟩ := he
      rw [if_pos ⟨rfl, rfl⟩, stop_survives n s (by simp at hl; omega) (survives_pair s h)]
      simp; omega
    · rw [if_neg he, if_neg h34]
      have := stop_survives n (d :: s) (by simp at hl ⊢; omega) (survives_cons c (d :: s) h (by simpa using he))
      rw [List.cons_append] at this
      rw [this]; simp; omega

/-- ... and only then. -/
theorem survives_of_stop : ∀ (n : Nat) (s : List Nat), s.length ≤ n → stop (s ++ [34]) = s.length → Survives s
  | _, [], _, _ => ⟨by simp, fun a b e => by simp at e, by simp⟩
  | n + 1, [c], _, h => by
    simp only [List.cons_append, List.nil_append, stop, List.length_singleton] at h
    by_cases h0 : c = 0
    · simp [h0] at h
    · rw [if_neg h0] at h
      by_cases h92 : c = 92
      · simp [h92] at h
      · rw [if_neg (by simp [h92])] at h
        by_cases h34 : c = 34
        · simp [h34] at h
        · refine ⟨by simpa using fun e => h0 e.symm, ?_, by simpa using h92⟩
          intro a b e
          cases a with
          | nil => simp at e; exact absurd e.1 h34
          | cons x a => simp at e
  | n + 1, c :: d :: s, hl, h => by
    simp only [List.cons_append, stop, List.length_cons] at h
    by_cases h0 : c = 0
    · simp [h0] at h
    · rw [if_neg h0] at h
      by_cases he : c = 92 ∧ d = 34
      · obtain ⟨rfl, rfl⟩ := he
        rw [if_pos ⟨rfl, rfl⟩] at h
        obtain ⟨i1, i2, i3⟩ := survives_of_stop n s (by simp at hl; omega) (by omega)
        refine ⟨by simpa using i1, ?_, ?_⟩
        · intro a b e
          match a, e with
          | [], e => simp at e
          | [x], e => simp at e; rw [← e.1]; rfl
          | x :: y :: a, e =>
            simp at e
            have := i2 a b e.2.2
            cases a with
            | nil => simp at this
            | cons z a => rw [List.getLast?_cons_cons, List.getLast?_cons_cons]; exact this
        · cases s with
          | nil => simp
          | cons z s => rw [List.getLast?_cons_cons, List.getLast?_cons_cons]; exact i3
      · rw [if_neg he] at h
        by_cases h34 : c = 34
        · simp [h34] at h
        · rw [if_neg h34] at h
          obtain ⟨i1, i2, i3⟩ := survives_of_stop n (d :: s) (by simp at hl ⊢; omega) (by simp; omega)
          refine ⟨?_, ?_, ?_⟩
          · simp only [List.mem_cons, not_or] at i1 ⊢
            exact ⟨fun e => h0 e.symm, i1⟩
          · intro a b e
            match a, e with
            | [], e => simp at e; exact absurd e.1 h34
            | [x], e =>
              have := i2 [] b (List.cons.inj e).2
              simp at this
            | x :: y :: a, e =>
              have := i2 (y :: a) b (by simpa using (List.cons.inj e).2)
              rw [List.getLast?_cons_cons]; exact this
          · rw [List.getLast?_cons_cons]; exact i3

theorem parse_written (s : List Nat) :
    expectString (toJSON s) 0 =
      (if stop (s ++ [34]) < s.length + 1 ∧ (s ++ [34])[stop (s ++ [34])]? = some 34
        then .ok (some (s.take (stop (s ++ [34])), stop (s ++ [34]) + 2)) else .ok none) := by
  have hd : toJSON s = [34] ++ (s ++ [34]) := by simp [toJSON]
  unfold expectString
  rw [hd]
  have h1 : skipWs ([34] ++ (s ++ [34])) (([34] ++ (s ++ [34])).length + 1) 0 = .ok 0 := by
    simp [skipWs, rd, isSpace]
  rw [h1, Out.bind_ok, show rd ([34] ++ (s ++ [34])) 0 = .ok 34 by simp [rd], Out.bind_ok, if_neg (by simp),
    advance_ok _ _ (by simp), Out.bind_ok]
  have h2 := scan_stop (([34] ++ (s ++ [34])).length + 1) [34] (s ++ [34]) (by simp)
  simp only [List.length_singleton] at h2
  rw [show (0 + 1) = 1 from rfl, h2, Out.bind_ok]
  have hle := stop_le (s ++ [34])
  simp only [List.length_append, List.length_singleton] at hle
  generalize stop (s ++ [34]) = k at *
  by_cases hk : k < s.length + 1
  · have hg : (s ++ [34])[k]? = some ((s ++ [34])[k]'(by simp; omega)) := List.getElem?_eq_getElem _
    have hr : rd ([34] ++ (s ++ [34])) (1 + k) = .ok ((s ++ [34])[k]'(by simp; omega)) := by
      rw [rd_in _ _ (by simp; omega)]
      rw [List.getElem_append_right (by simp)]
      simp
    rw [hr, Out.bind_ok]
    by_cases hq : (s ++ [34])[k]'(by simp; omega) = 34
    · rw [if_neg (by simpa using hq), advance_ok _ _ (by simp; omega), Out.bind_ok, if_pos ⟨hk, by rw [hg, hq]⟩]
      congr 2
      rw [show 1 + k - 1 = k by omega]
      simp only [List.drop_succ_cons, List.drop_zero, List.cons_append, List.nil_append]
      rw [List.take_append_of_le_length (by omega)]
      congr 1
      omega
    · rw [if_pos (by simpa using hq), if_neg (by rw [hg]; simpa using fun _ => hq)]
  · have hk' : k = s.length + 1 := by omega
    subst hk'
    rw [show rd ([34] ++ (s ++ [34])) (1 + (s.length + 1)) = .ok 0 by simp [rd, Nat.add_comm], Out.bind_ok, if_pos (by simp), if_neg (by omega)]

/-- **C45 (partial).** Strings without NUL bytes, without a quote that is not directly behind a backslash and without a
backslash at the end survive being written and parsed. -/
theorem json_string_partial (s : List Nat) (h : Survives s) :
    expectString (toJSON s) 0 = .ok (some (s, (toJSON s).length)) := by
  rw [parse_written, stop_survives _ s (Nat.le_refl _) h, if_pos ⟨by omega, by simp⟩]
  simp [toJSON]

/-- **C45 fails** for all other strings: they come back as a different string or not at all. -/
theorem json_string_lost (s : List Nat) (h : ¬ Survives s) (n : Nat) : expectString (toJSON s) 0 ≠ .ok (some (s, n)) := by
  rw [parse_written]
  split
  · rename_i hk
    intro e
    simp only [Out.ok.injEq, Option.some.injEq, Prod.mk.injEq] at e
    have e1 := e.1
    have hlen := congrArg List.length e1
    rw [List.length_take] at hlen
    exact h (survives_of_stop _ s (Nat.le_refl _) (by omega))
  · intro e; cases e

/-- A quote inside a string ends it early: the rest is read as more JSON. -/
theorem json_quote_ends (a b : List Nat) (h : Survives a) (hn : 34 ∉ a) :
    ∃ n, expectString (toJSON (a ++ 34 :: b)) 0 = .ok (some (a, n)) := by
  have hs : stop (a ++ 34 :: b ++ [34]) = a.length := by
    have key : ∀ (a r : List Nat), 0 ∉ a → 34 ∉ a → a.getLast? ≠ some 92 → stop (a ++ 34 :: r) = a.length := by
      intro a
      induction a with
      | nil => intro r _ _ _; cases r <;> simp [stop]
      | cons c a ih =>
        intro r h1 h2 h3
        have hc0 : c ≠ 0 := by rintro rfl; simp at h1
        have hc34 : c ≠ 34 := by rintro rfl; simp at h2
        cases a with
        | nil =>
          have h92 : c ≠ 92 := by rintro rfl; simp at h3
          have := ih r (by simp) (by simp) (by simp)
          simp only [List.nil_append, List.length_nil] at this
          simp [stop, hc0, hc34, h92, this]
        | cons d a =>
          have hd : d ≠ 34 := by rintro rfl; simp at h2
          have := ih r (fun h => h1 (List.mem_cons_of_mem _ h)) (fun h => h2 (List.mem_cons_of_mem _ h)) (by rw [List.getLast?_cons_cons] at h3; exact h3)
          simp only [List.cons_append] at this
          simp [stop, hc0, hc34, hd, this]; omega
    have := key a (b ++ [34]) h.1 hn h.2.2
    simpa using this
  rw [parse_written, hs, if_pos ⟨by simp; omega, by simp⟩]
  exact ⟨a.length + 2, by simp⟩

example : Survives [97, 92, 34, 98] ∧ ¬ Survives [97, 34] ∧
    expectString (toJSON [97, 92, 34, 98]) 0 = .ok (some ([97, 92, 34, 98], 6)) ∧
    expectString (toJSON [97, 34, 98]) 0 = .ok (some ([97], 3)) ∧ expectString (toJSON [97, 92]) 0 = .ok none := by
  refine ⟨survives_of_stop 4 _ (by simp) (by decide), fun h => ?_, by decide, by decide, by decide⟩
  have := h.2.1 [97] [] rfl
  simp at this

end Verif.Json
