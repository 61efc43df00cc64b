import Verif.Std.Args.Props
/-! # Command lines that are not supported (C94) -/
namespace Verif.Args

/-! ## Whatever is on the command line -/

/-- What a parsed command line can hold: declared parameters, each at most once, and no value for an option. -/
def Sound (ps : List Param) (parsed : List (Str × Str)) : Prop :=
  (parsed.map Prod.fst).Nodup ∧ ∀ e ∈ parsed, ∃ p ∈ ps, p.name = e.1 ∧ (p.option = true → e.2 = [])

theorem addParsed_sound {ps : List Param} {st st' : St} {p : Param} {v : Str} (h : Sound ps st.parsed) (hp : p ∈ ps)
    (hv : p.option = true → v = []) (he : addParsed st p.name v = .ok st') : Sound ps st'.parsed := by
  unfold addParsed at he
  by_cases hf : (st.parsed.find? fun e => e.1 = p.name).isSome = true
  · rw [if_pos hf] at he; cases he
  · rw [if_neg hf] at he
    cases he
    rw [find_name] at hf
    refine ⟨?_, ?_⟩
    · simp only [List.map_append, List.map_cons, List.map_nil]
      rw [List.nodup_append]
      refine ⟨h.1, by simp, ?_⟩
      intro a ha b hb e
      simp only [List.mem_singleton] at hb
      exact hf (by rw [← hb, ← e]; exact ha)
    · intro e he
      rcases List.mem_append.1 he with he | he
      · exact h.2 e he
      · simp only [List.mem_singleton] at he
        subst he
        exact ⟨p, hp, rfl, hv⟩

theorem bind_eq_ok {β γ : Type} {r : R β} {f : β → R γ} {c : γ} (h : r.bind f = .ok c) : ∃ b, r = .ok b ∧ f b = .ok c := by
  cases r with
  | ok b => exact ⟨b, rfl, h⟩
  | raised => cases h
  | abort => cases h
  | diverge => cases h

theorem multiple_sound {ps : List Param} : ∀ (cs : List Nat) {st st' : St}, Sound ps st.parsed →
    multiple ps cs st = .ok st' → Sound ps st'.parsed
  | [], st, st', h, e => by cases e; exact h
  | c :: cs, st, st', h, e => by
    rw [multiple] at e
    cases hf : byFlag ps c with
    | none => rw [hf] at e; cases e
    | some p =>
      rw [hf] at e
      simp only at e
      by_cases ho : p.option = true
      · rw [if_pos ho] at e
        obtain ⟨st2, h1, h2⟩ := bind_eq_ok e
        exact multiple_sound cs (addParsed_sound h (byFlag_mem hf).1 (fun _ => rfl) h1) h2
      · rw [if_neg ho] at e; cases e

theorem classify_sound {ps : List Param} {full : Str} {st : St} {r : St × Arg} (h : Sound ps st.parsed)
    (e : classify ps full st = .ok r) : Sound ps r.1.parsed ∧ ∀ p v, r.2 = .param p v → p ∈ ps := by
  unfold classify at e
  simp only at e
  by_cases h1 : at' full 1 = 45
  · rw [if_pos h1] at e
    by_cases h2 : (cut full).1.drop 2 = []
    · rw [if_pos h2] at e
      by_cases h3 : (cut full).2 = []
      · rw [if_pos h3] at e; cases e
        exact ⟨h, by intro p v hh; cases hh⟩
      · rw [if_neg h3] at e; cases e
    · rw [if_neg h2] at e
      cases hb : byName ps ((cut full).1.drop 2) with
      | none => rw [hb] at e; cases e
      | some p =>
        rw [hb] at e; cases e
        exact ⟨h, by intro q v hh; cases hh; exact (byName_mem hb).1⟩
  · rw [if_neg h1] at e
    cases hl : ((cut full).1.drop 1).getLast? with
    | none => rw [hl] at e; cases e
    | some c =>
      rw [hl] at e
      simp only at e
      obtain ⟨st2, e1, e2⟩ := bind_eq_ok e
      have hs : Sound ps st2.parsed := by
        by_cases hx : 1 < ((cut full).1.drop 1).length
        · rw [if_pos hx] at e1; exact multiple_sound _ h e1
        · rw [if_neg hx] at e1; cases e1; exact h
      cases hb : byFlag ps c with
      | none => rw [hb] at e2; cases e2
      | some p =>
        rw [hb] at e2; cases e2
        exact ⟨hs, by intro q v hh; cases hh; exact (byFlag_mem hb).1⟩

theorem restLoop_parsed {args : List Str} : ∀ (f : Nat) (x : BitVec 64) (st st' : St), restLoop args f x st = .ok st' →
    st'.parsed = st.parsed
  | 0, _, _, _, e => by cases e
  | f + 1, x, st, st', e => by
    rw [restLoop] at e
    by_cases h : x = BitVec.ofNat 64 args.length
    · rw [if_pos h] at e; cases e; rfl
    · rw [if_neg h] at e
      cases ha : args[x.toNat]? with
      | none => rw [ha] at e; cases e
      | some a =>
        rw [ha] at e
        exact restLoop_parsed f (x + 1) { st with rest := st.rest ++ [a] } st' e

theorem loop_sound {ps : List Param} {args : List Str} : ∀ (f : Nat) (i : BitVec 8) (st st' : St), Sound ps st.parsed →
    loop ps args f i st = .ok st' → Sound ps st'.parsed
  | 0, _, _, _, _, e => by cases e
  | f + 1, i, st, st', h, e => by
    rw [loop] at e
    cases ha : args[(i.signExtend 64).toNat]? with
    | none => rw [ha] at e; cases e; exact h
    | some full =>
      rw [ha] at e
      simp only at e
      by_cases h0 : at' full 0 ≠ 45
      · rw [if_pos h0] at e; exact loop_sound f (i + 1) { st with positionals := st.positionals ++ [full] } st' h e
      · rw [if_neg h0] at e
        obtain ⟨⟨st2, a⟩, e1, e2⟩ := bind_eq_ok e
        obtain ⟨hs, hp⟩ := classify_sound h e1
        cases a with
        | rest => rw [show st'.parsed = st2.parsed from restLoop_parsed _ _ _ _ e2]; exact hs
        | param p val =>
          have hpm := hp p val rfl
          simp only at e2
          by_cases ho : p.option = true
          · rw [if_pos ho] at e2
            by_cases hv : val ≠ []
            · rw [if_pos hv] at e2; cases e2
            · rw [if_neg hv] at e2
              obtain ⟨st3, e3, e4⟩ := bind_eq_ok e2
              exact loop_sound f _ st3 st' (addParsed_sound hs hpm (fun _ => by simpa using hv) e3) e4
          · rw [if_neg ho] at e2
            by_cases hv : val = []
            · rw [if_pos hv] at e2
              cases hn : args[((i + 1).signExtend 64).toNat]? with
              | none => rw [hn] at e2; cases e2
              | some v =>
                rw [hn] at e2
                simp only at e2
                by_cases h45 : at' v 0 = 45
                · rw [if_pos h45] at e2; cases e2
                · rw [if_neg h45] at e2
                  obtain ⟨st3, e3, e4⟩ := bind_eq_ok e2
                  exact loop_sound f _ st3 st' (addParsed_sound hs hpm (fun h => absurd h ho) e3) e4
            · rw [if_neg hv] at e2
              obtain ⟨st3, e3, e4⟩ := bind_eq_ok e2
              exact loop_sound f _ st3 st' (addParsed_sound hs hpm (fun h => absurd h ho) e3) e4

/-- **C94.** Whatever the command line, if it is accepted then only declared parameters are set, each once and options
without a value, and every parameter that takes a value has one. -/
theorem accepted_line_sound (ps : List Param) (hps : ParamsOk ps) (args : List Str) (st : St) (h : parse ps args = .ok st) :
    Sound ps st.parsed ∧ ∀ p ∈ ps, p.option = false → p.name ∈ st.parsed.map Prod.fst := by
  unfold parse at h
  obtain ⟨st1, e1, e2⟩ := bind_eq_ok h
  have hs := loop_sound _ _ _ _ (show Sound ps [] from ⟨by simp, by simp⟩) e1
  have hv := validate_eq st1 ps [] hps.1 (by simp)
  simp only [List.append_nil] at hv
  unfold validate at e2
  rw [hv] at e2
  split at e2
  · cases e2
  · rename_i hx
    cases e2
    refine ⟨⟨?_, ?_⟩, ?_⟩
    · simp only [List.map_append, List.map_map]
      rw [List.nodup_append]
      refine ⟨hs.1, ?_, ?_⟩
      · exact List.Nodup.sublist (List.Sublist.map Param.name List.filter_sublist) hps.1
      · intro a ha b hb e
        obtain ⟨q, hq, rfl⟩ := List.mem_map.1 hb
        have := (List.mem_filter.1 hq).2
        simp only [decide_eq_true_eq] at this
        exact this.2 (by rw [← show a = q.name from e]; exact ha)
    · intro e he
      rcases List.mem_append.1 he with he | he
      · exact hs.2 e he
      · obtain ⟨q, hq, rfl⟩ := List.mem_map.1 he
        have hq' := List.mem_filter.1 hq
        simp only [decide_eq_true_eq] at hq'
        exact ⟨q, hq'.1, rfl, fun h => by rw [hq'.2.1] at h; cases h⟩
    · intro p hp ho
      simp only [List.map_append, List.mem_append]
      by_cases hm : p.name ∈ st1.parsed.map Prod.fst
      · exact .inl hm
      · right
        refine List.mem_map.2 ⟨(p.name, p.default), List.mem_map.2 ⟨p, List.mem_filter.2 ⟨hp, ?_⟩, rfl⟩, rfl⟩
        simp only [decide_eq_true_eq]
        exact ⟨ho, hm⟩

example : parse demo [[45, 45, 97, 108, 108], [45, 111, 61, 102], [120]] =
    .ok ⟨[([97, 108, 108], []), ([111, 117, 116], [102])], [[120]], []⟩ := by decide

/-! ## What is rejected -/

/-- Arguments that follow a supported part of a line and that the command must not accept. -/
inductive Unsupported (ps : List Param) (seen : List Str) : List Str → Prop
  /-- `--name` or `--name=value` where no such parameter is declared. -/
  | unknownLong (n v : Str) (tail : List Str) : n ≠ [] → 61 ∉ n → (∀ p ∈ ps, p.name ≠ n) → (v = [] ∨ v.head? = some 61) →
      Unsupported ps seen ((45 :: 45 :: n ++ v) :: tail)
  /-- A group of short options one of which is not declared. -/
  | unknownShort (cs v : Str) (c : Nat) (tail : List Str) : c ∈ cs → 61 ∉ cs → cs.head? ≠ some 45 → (∀ p ∈ ps, p.sf ≠ c) →
      (v = [] ∨ v.head? = some 61) → Unsupported ps seen ((45 :: cs ++ v) :: tail)
  /-- `--option=value` for a parameter that takes none. -/
  | valueForOption (p : Param) (v : Str) (tail : List Str) : p ∈ ps → p.option = true → p.name ≠ [] → 61 ∉ p.name → v ≠ [] →
      Unsupported ps seen ((45 :: 45 :: p.name ++ 61 :: v) :: tail)
  /-- `--name` at the end of the line, or before another option, for a parameter that takes a value. -/
  | noValue (p : Param) (tail : List Str) : p ∈ ps → p.option = false → p.name ≠ [] → 61 ∉ p.name →
      (∀ v, tail.head? = some v → v.head? = some 45) → Unsupported ps seen ((45 :: 45 :: p.name) :: tail)
  /-- A parameter that was given before. -/
  | again (p : Param) (how : How) (tail : List Str) : p ∈ ps → p.name ∈ seen → p.name ≠ [] → 61 ∉ p.name → HowOk p how →
      Unsupported ps seen ((Item.long p how).render ++ tail)

theorem byName_none {ps : List Param} {n : Str} (h : ∀ p ∈ ps, p.name ≠ n) : byName ps n = none := by
  unfold byName
  rw [List.find?_eq_none]
  intro p hp
  simpa using h p hp

theorem byFlag_none {ps : List Param} {c : Nat} (h : ∀ p ∈ ps, p.sf ≠ c) : byFlag ps c = none := by
  unfold byFlag
  rw [List.find?_eq_none]
  intro p hp
  simpa using fun _ => h p hp

theorem cut_at (a v : Str) (ha : 61 ∉ a) (hv : v = [] ∨ v.head? = some 61) : (cut (a ++ v)).1 = a := by
  rcases hv with rfl | hv
  · have := cut_suffix a ha .none
    simp only [How.suffix] at this
    rw [this]
  · cases v with
    | nil => simp at hv
    | cons x v =>
      simp only [List.head?_cons, Option.some.injEq] at hv
      subst hv
      have := cut_suffix a ha (.eq v)
      simp only [How.suffix] at this
      rw [this]

/-- The outcomes of the parts of the parser that record values. -/
theorem addParsed_total (st : St) (n v : Str) : addParsed st n v = .raised ∨ ∃ st', addParsed st n v = .ok st' := by
  unfold addParsed
  split
  · exact .inl rfl
  · exact .inr ⟨_, rfl⟩

theorem multiple_total (ps : List Param) : ∀ (cs : List Nat) (st : St), multiple ps cs st = .raised ∨ ∃ st', multiple ps cs st = .ok st'
  | [], st => .inr ⟨st, rfl⟩
  | c :: cs, st => by
    rw [multiple]
    cases byFlag ps c with
    | none => exact .inl rfl
    | some p =>
      simp only
      by_cases ho : p.option = true
      · rw [if_pos ho]
        rcases addParsed_total st p.name [] with h | ⟨st', h⟩
        · rw [h]; exact .inl rfl
        · rw [h, R.bind_ok]; exact multiple_total ps cs st'
      · rw [if_neg ho]; exact .inl rfl

theorem multiple_unknown (ps : List Param) (c : Nat) (hc : byFlag ps c = none) : ∀ (cs : List Nat) (st : St), c ∈ cs →
    multiple ps cs st = .raised
  | x :: cs, st, h => by
    rw [multiple]
    by_cases hx : x = c
    · subst hx; rw [hc]
    · have hm : c ∈ cs := by
        rcases List.mem_cons.1 h with h | h
        · exact absurd h.symm hx
        · exact h
      cases byFlag ps x with
      | none => rfl
      | some p =>
        simp only
        by_cases ho : p.option = true
        · rw [if_pos ho]
          rcases addParsed_total st p.name [] with h | ⟨st', h⟩
          · rw [h]; rfl
          · rw [h, R.bind_ok]; exact multiple_unknown ps c hc cs st' hm
        · rw [if_neg ho]

theorem classify_unknown_short (ps : List Param) (cs v : Str) (c : Nat) (st : St) (hc : c ∈ cs) (h61 : 61 ∉ cs)
    (h45 : cs.head? ≠ some 45) (hn : ∀ p ∈ ps, p.sf ≠ c) (hv : v = [] ∨ v.head? = some 61) :
    classify ps (45 :: cs ++ v) st = .raised := by
  have hcut := cut_at (45 :: cs) v (by simp [h61]) hv
  have hne : cs ≠ [] := by rintro rfl; simp at hc
  have hfl := byFlag_none hn
  unfold classify
  simp only
  rw [hcut, if_neg (by
    cases cs with
    | nil => simp at hc
    | cons x cs => simpa [at'] using h45)]
  simp only [List.drop_succ_cons, List.drop_zero]
  obtain ⟨l, x, rfl⟩ : ∃ l x, cs = l ++ [x] := ⟨cs.dropLast, cs.getLast hne, (List.dropLast_concat_getLast hne).symm⟩
  rw [List.getLast?_concat]
  simp only
  by_cases hx : c = x
  · subst hx
    by_cases h1 : 1 < (l ++ [c]).length
    · rw [if_pos h1]
      rcases multiple_total ps (l ++ [c]).dropLast st with h | ⟨st', h⟩
      · rw [h]; rfl
      · rw [h, R.bind_ok, hfl]
    · rw [if_neg h1, R.bind_ok, hfl]
  · have hl : c ∈ l := by
      rcases List.mem_append.1 hc with h | h
      · exact h
      · exact absurd (by simpa using h) hx
    have : 1 < (l ++ [x]).length := by
      have := List.length_pos_of_mem hl
      simp; omega
    rw [if_pos this, List.dropLast_concat, multiple_unknown ps c hfl l st hl]
    rfl

theorem addParsed_again (st : St) (n v : Str) (h : n ∈ st.parsed.map Prod.fst) : addParsed st n v = .raised := by
  unfold addParsed
  rw [if_pos ((find_name _ _).2 h)]

/-- **C94 (partial).** A line whose supported part is followed by something the command must not accept is rejected,
whatever comes after that.  Missing: lines longer than the 128 arguments that are looked at (C90). -/
theorem unsupported_rejected_partial (ps : List Param) (hps : ParamsOk ps) (items : List Item) (bad : List Str)
    (h : LineOk ps items) (hl : (renderAll items).length < 128) (hlen : bad.length < 2 ^ 63)
    (hb : Unsupported ps ((items.map Item.values).flatten.map Prod.fst) bad) : parse ps (renderAll items ++ bad) = .raised := by
  have hi := items_le items
  obtain ⟨n, hn⟩ : ∃ n, 256 - items.length = n + 1 := ⟨255 - items.length, by omega⟩
  have hi1 : ∀ k, BitVec.ofNat 8 k + 1 = BitVec.ofNat 8 (k + 1) := by intro k; rw [← BitVec.ofNat_add_ofNat]; rfl
  unfold parse
  rw [loop_line ps hps items bad h (by omega), hn]
  -- one step of the loop suffices
  suffices hs : loop ps (renderAll items ++ bad) (n + 1) (BitVec.ofNat 8 (renderAll items).length) (delivered items) = .raised by
    rw [hs]; rfl
  have step : ∀ (full : Str) (tail : List Str), bad = full :: tail → at' full 0 = 45 →
      classify ps full (delivered items) = .raised →
      loop ps (renderAll items ++ bad) (n + 1) (BitVec.ofNat 8 (renderAll items).length) (delivered items) = .raised := by
    rintro full tail rfl h0 hc
    rw [loop, idx_small _ hl, show (renderAll items ++ full :: tail)[(renderAll items).length]? = some full by simp]
    simp only
    rw [if_neg (by simpa using h0), hc]
    rfl
  cases hb with
  | unknownLong m v tail h1 h2 h3 h4 =>
    refine step _ tail rfl (by simp [at']) ?_
    unfold classify
    simp only
    rw [show (45 :: 45 :: m ++ v : Str) = (45 :: 45 :: m) ++ v from rfl, cut_at _ v (by simp [h2]) h4, if_pos (by simp [at']),
      if_neg (by simpa using h1)]
    simp only [List.drop_succ_cons, List.drop_zero, byName_none h3]
  | unknownShort cs v c tail h1 h2 h3 h4 h5 =>
    exact step _ tail rfl (by simp [at']) (classify_unknown_short ps cs v c _ h1 h2 h3 h4 h5)
  | valueForOption p v tail h1 h2 h3 h4 h5 =>
    have hcut := cut_suffix (45 :: 45 :: p.name) (by simp [h4]) (.eq v)
    simp only [How.suffix] at hcut
    have hc : classify ps (45 :: 45 :: p.name ++ 61 :: v) (delivered items) = .ok (delivered items, .param p v) := by
      unfold classify
      rw [show (45 :: 45 :: p.name ++ 61 :: v : Str) = (45 :: 45 :: p.name) ++ 61 :: v from rfl, hcut]
      simp only
      rw [if_pos (by simp [at']), if_neg (by simpa using h3)]
      simp only [List.drop_succ_cons, List.drop_zero, byName_of_mem hps h1]
    rw [loop, idx_small _ hl, show (renderAll items ++ (45 :: 45 :: p.name ++ 61 :: v) :: tail)[(renderAll items).length]? =
      some (45 :: 45 :: p.name ++ 61 :: v) by simp]
    simp only
    rw [if_neg (by simp [at']), hc, R.bind_ok]
    simp only
    rw [if_pos h2, if_pos h5]
  | noValue p tail h1 h2 h3 h4 h5 =>
    have hcut := cut_suffix (45 :: 45 :: p.name) (by simp [h4]) .none
    simp only [How.suffix, List.append_nil] at hcut
    have hc : classify ps (45 :: 45 :: p.name) (delivered items) = .ok (delivered items, .param p []) := by
      unfold classify
      rw [hcut]
      simp only
      rw [if_pos (by simp [at']), if_neg (by simpa using h3)]
      simp only [List.drop_succ_cons, List.drop_zero, byName_of_mem hps h1]
    rw [loop, idx_small _ hl, show (renderAll items ++ (45 :: 45 :: p.name) :: tail)[(renderAll items).length]? =
      some (45 :: 45 :: p.name) by simp]
    simp only
    rw [if_neg (by simp [at']), hc, R.bind_ok]
    simp only
    rw [if_neg (by simp [h2]), if_pos trivial, hi1]
    generalize hg : (renderAll items ++ (45 :: 45 :: p.name) :: tail)[((BitVec.ofNat 8 ((renderAll items).length + 1)).signExtend 64).toNat]? = g
    cases g with
    | none => rfl
    | some v =>
      by_cases hlt : (renderAll items).length + 1 < 128
      · rw [idx_small _ hlt] at hg
        have hv : tail.head? = some v := by
          rw [List.getElem?_append_right (by omega)] at hg
          simp at hg
          rw [List.head?_eq_getElem?]; exact hg
        simp only
        rw [if_pos (by rw [head_iff _ _ (by decide)]; exact h5 v hv)]
      · exfalso
        rw [show (renderAll items).length + 1 = 128 by omega, idx_wrap, List.getElem?_eq_none_iff.2 (by
          rw [List.length_append]; omega)] at hg
        cases hg
  | again p how tail h1 h2 h3 h4 h5 =>
    have hc := classify_long ps hps p how (delivered items) ⟨h1, h3, h4, h5⟩
    have hag : ∀ v, addParsed (delivered items) p.name v = .raised := fun v => addParsed_again _ _ _ h2
    rw [loop, idx_small _ hl, show (renderAll items ++ ((Item.long p how).render ++ tail))[(renderAll items).length]? =
      some (45 :: 45 :: p.name ++ how.suffix) by simp [Item.render]]
    simp only
    rw [if_neg (by simp [at']), hc, R.bind_ok]
    simp only
    cases how with
    | none =>
      simp only [HowOk] at h5
      rw [if_pos h5, if_neg (by simp [How.inline]), hag]
      rfl
    | eq v =>
      simp only [HowOk] at h5
      rw [if_neg (by simp [h5.1]), if_neg (by simpa [How.inline] using h5.2), hag]
      rfl
    | next v =>
      simp only [HowOk] at h5
      rw [if_neg (by simp [h5.1]), if_pos (by simp [How.inline]), hi1]
      by_cases hlt : (renderAll items).length + 1 < 128
      · rw [idx_small _ hlt, show (renderAll items ++ ((Item.long p (.next v)).render ++ tail))[(renderAll items).length + 1]? =
          some v by simp [Item.render, How.extra]]
        simp only
        rw [if_neg (by rw [head_iff _ _ (by decide)]; exact h5.2), hag]
        rfl
      · rw [show (renderAll items).length + 1 = 128 by omega, idx_wrap, List.getElem?_eq_none_iff.2 (by
          rw [List.length_append]; omega)]

/-- `x -abo f --all`: `all` was given in the group before. -/
example : Unsupported demo ((demoLine.map Item.values).flatten.map Prod.fst) ((Item.long demo[1] .none).render ++ []) ∧
    parse demo (renderAll demoLine ++ (Item.long demo[1] .none).render) = .raised :=
  ⟨.again demo[1] .none [] (by decide) (by decide) (by decide) (by decide) rfl, by decide⟩

/-- `-az`: there is no `z`. -/
example : Unsupported demo [] [[45, 97, 122]] ∧ parse demo [[45, 97, 122]] = .raised :=
  ⟨.unknownShort [97, 122] [] 122 [] (by decide) (by decide) (by decide) (by decide) (.inl rfl), by decide⟩

end Verif.Args
