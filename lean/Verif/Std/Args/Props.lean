import Verif.Std.Args.Model
/-! # What reaches a command from its command line (C46, C90, C94) -/
namespace Verif.Args

/-! ## Specification: command lines as people write them -/

/-- How the value of a parameter is written. -/
inductive How where
  | none
  | eq (v : Str)
  | next (v : Str)
  deriving DecidableEq, Repr

/-- Something on the command line: a positional argument, `--name`, or a group of short options ending in `p`. -/
inductive Item where
  | pos (s : Str)
  | long (p : Param) (how : How)
  | short (front : List Param) (p : Param) (how : How)
  deriving DecidableEq, Repr

/-- The text after `--name` or `-f`. -/
def How.suffix : How → Str
  | .eq v => 61 :: v
  | _ => []

/-- The extra argument. -/
def How.extra : How → List Str
  | .next v => [v]
  | _ => []

/-- The value given. -/
def How.value : How → Str
  | .none => []
  | .eq v => v
  | .next v => v

/-- An item as the user writes it. -/
def Item.render : Item → List Str
  | .pos s => [s]
  | .long p how => (45 :: 45 :: p.name ++ how.suffix) :: how.extra
  | .short front p how => (45 :: (front.map Param.sf ++ [p.sf]) ++ how.suffix) :: how.extra

def renderAll (items : List Item) : List Str := (items.map Item.render).flatten

/-- The values an item stands for. -/
def Item.values : Item → List (Str × Str)
  | .pos _ => []
  | .long p how => [(p.name, how.value)]
  | .short front p how => front.map (fun q => (q.name, [])) ++ [(p.name, how.value)]

def Item.positional : Item → List Str
  | .pos s => [s]
  | _ => []

/-- A parameter that takes a value has one, and its value can be told from an option. -/
def HowOk (p : Param) : How → Prop
  | .none => p.option = true
  | .eq v => p.option = false ∧ v ≠ []
  | .next v => p.option = false ∧ v.head? ≠ some 45

/-- No two parameters share a name or a short name; `0` stands for no short name. -/
def ParamsOk (ps : List Param) : Prop :=
  (ps.map Param.name).Nodup ∧ ∀ p ∈ ps, ∀ q ∈ ps, p.sf ≠ 0 → p.sf = q.sf → p = q

/-- An item the command supports. -/
def ItemOk (ps : List Param) : Item → Prop
  | .pos s => s.head? ≠ some 45
  | .long p how => p ∈ ps ∧ p.name ≠ [] ∧ 61 ∉ p.name ∧ HowOk p how
  | .short front p how => (∀ q ∈ front ++ [p], q ∈ ps ∧ q.sf ≠ 0 ∧ q.sf ≠ 61) ∧ (∀ q ∈ front, q.option = true) ∧
      ((front ++ [p]).map Param.sf).head? ≠ some 45 ∧ HowOk p how

/-- A command line the command supports: every item is known and no parameter is given twice. -/
def LineOk (ps : List Param) (items : List Item) : Prop :=
  (∀ x ∈ items, ItemOk ps x) ∧ ((items.map Item.values).flatten.map Prod.fst).Nodup

/-- A parameter without which the command cannot run. -/
def Missing (items : List Item) (p : Param) : Prop :=
  p.option = false ∧ p.name ∉ (items.map Item.values).flatten.map Prod.fst

instance (items : List Item) (p : Param) : Decidable (Missing items p) := by unfold Missing; infer_instance

/-- What a command should get from a supported line: a value for everything that was given, the default of every
other parameter that takes a value, the positional arguments and the rest.  Without a default there is an error. -/
def outcome (ps : List Param) (items : List Item) (rest : List Str) : R St :=
  if ∃ p ∈ ps, Missing items p ∧ p.default = [] then .raised
  else .ok ⟨(items.map Item.values).flatten ++ (ps.filter (fun p => Missing items p)).map (fun p => (p.name, p.default)),
    (items.map Item.positional).flatten, rest⟩

/-! ## Proofs -/

theorem head_iff (s : Str) (c : Nat) (hc : c ≠ 0) : at' s 0 = c ↔ s.head? = some c := by
  cases s with
  | nil => simp [at']; omega
  | cons a s => simp [at']

theorem byName_of_mem {ps : List Param} (hps : ParamsOk ps) {p : Param} (hp : p ∈ ps) : byName ps p.name = some p := by
  unfold byName
  have hn := hps.1
  clear hps
  induction ps with
  | nil => simp at hp
  | cons q ps ih =>
    simp only [List.map_cons, List.nodup_cons] at hn
    rw [List.find?_cons]
    by_cases h : q.name = p.name
    · simp only [h, decide_true]
      rcases List.mem_cons.1 hp with e | e
      · rw [e]
      · exact absurd (List.mem_map.2 ⟨p, e, h.symm⟩) hn.1
    · simp only [h, decide_false]
      rcases List.mem_cons.1 hp with e | e
      · exact absurd (by rw [e]) h
      · exact ih e hn.2

theorem byFlag_of_mem {ps : List Param} (hps : ParamsOk ps) {p : Param} (hp : p ∈ ps) (h0 : p.sf ≠ 0) :
    byFlag ps p.sf = some p := by
  unfold byFlag
  cases h : ps.find? fun q => q.sf ≠ 0 && q.sf = p.sf with
  | none =>
    rw [List.find?_eq_none] at h
    exact absurd (h p hp) (by simp [h0])
  | some q =>
    have h1 := List.find?_some h
    have h2 := List.mem_of_find?_eq_some h
    simp only [ne_eq, decide_not, Bool.and_eq_true, Bool.not_eq_eq_eq_not, Bool.not_true, decide_eq_false_iff_not,
      decide_eq_true_eq] at h1
    rw [hps.2 p hp q h2 h0 h1.2.symm]

theorem byFlag_mem {ps : List Param} {c : Nat} {p : Param} (h : byFlag ps c = some p) : p ∈ ps ∧ p.sf = c := by
  unfold byFlag at h
  have h1 := List.find?_some h
  simp only [Bool.and_eq_true, decide_eq_true_eq] at h1
  exact ⟨List.mem_of_find?_eq_some h, h1.2⟩

theorem byName_mem {ps : List Param} {n : Str} {p : Param} (h : byName ps n = some p) : p ∈ ps ∧ p.name = n := by
  unfold byName at h
  have h1 := List.find?_some h
  exact ⟨List.mem_of_find?_eq_some h, by simpa using h1⟩

/-- **C94.** Whatever parameters a command declares, those it accepts have different names and short names, and the
earlier ones are kept. -/
theorem declared_apart (ps ps' : List Param) (p : Param) (h : ParamsOk ps) (ha : addParam ps p = some ps') :
    ParamsOk ps' ∧ ∃ q, ps' = ps ++ [q] ∧ q.name = p.name ∧ q.sf = p.sf ∧ q.default = p.default ∧
      (q.option = true ↔ p.option = true ∧ p.default = []) := by
  unfold addParam at ha
  generalize hq : (if p.option && decide (p.default ≠ []) then { p with option := false } else p) = q at ha
  have hf : q.name = p.name ∧ q.sf = p.sf ∧ q.default = p.default ∧ (q.option = true ↔ p.option = true ∧ p.default = []) := by
    rw [← hq]
    split
    · rename_i hc
      simp only [Bool.and_eq_true, decide_eq_true_eq] at hc
      simp [hc.2]
    · rename_i hc
      simp only [Bool.and_eq_true, decide_eq_true_eq, not_and] at hc
      refine ⟨rfl, rfl, rfl, fun h => ⟨h, Decidable.byContradiction fun hn => hc h hn⟩, fun h => h.1⟩
  simp only at ha
  by_cases h1 : (byName ps q.name).isSome = true
  · rw [if_pos h1] at ha; cases ha
  rw [if_neg h1] at ha
  by_cases h2 : (decide (q.sf ≠ 0) && (byFlag ps q.sf).isSome) = true
  · rw [if_pos h2] at ha; cases ha
  rw [if_neg h2] at ha
  cases ha
  refine ⟨⟨?_, ?_⟩, q, rfl, hf⟩
  · rw [List.map_append, List.nodup_append]
    refine ⟨h.1, by simp, ?_⟩
    intro n hn m hm e
    obtain ⟨r, hr, rfl⟩ := List.mem_map.1 hn
    simp only [List.map_cons, List.map_nil, List.mem_singleton] at hm
    subst hm
    have := byName_of_mem h hr
    rw [e] at this
    rw [this] at h1
    exact h1 rfl
  · have hno : ∀ r ∈ ps, r.sf ≠ 0 → r.sf ≠ q.sf := by
      intro r hr h0 e
      have := byFlag_of_mem h hr h0
      rw [e] at this h0
      apply h2
      simp [this, h0]
    intro a ha b hb h0 e
    rw [List.mem_append, List.mem_singleton] at ha hb
    rcases ha with ha | rfl <;> rcases hb with hb | rfl
    · exact h.2 a ha b hb h0 e
    · exact absurd e (hno a ha h0)
    · exact absurd e.symm (hno b hb (by rw [← e]; exact h0))
    · rfl

example : ParamsOk [] ∧ addParam [⟨[111], 111, true, []⟩] ⟨[97], 111, true, []⟩ = none ∧
    addParam [⟨[111], 111, true, []⟩] ⟨[97], 0, true, [49]⟩ = some [⟨[111], 111, true, []⟩, ⟨[97], 0, false, [49]⟩] := by
  exact ⟨⟨by simp, by simp⟩, by decide, by decide⟩

theorem find_name (l : List (Str × Str)) (n : Str) : (l.find? fun e => e.1 = n).isSome = true ↔ n ∈ l.map Prod.fst := by
  simp only [List.find?_isSome, decide_eq_true_eq, List.mem_map]

/-- `validateParams` fills in exactly the defaults of what is missing. -/
theorem validate_eq (st : St) : ∀ (ps : List Param) (extra : List (Str × Str)),
    (ps.map Param.name).Nodup → (∀ p ∈ ps, p.name ∉ extra.map Prod.fst) →
    ps.foldl (fun r p => r.bind fun st =>
      if p.option then .ok st
      else if (st.parsed.find? fun e => e.1 = p.name).isSome then .ok st
      else if p.default = [] then .raised
      else .ok { st with parsed := st.parsed ++ [(p.name, p.default)] }) (R.ok { st with parsed := st.parsed ++ extra }) =
    if ∃ p ∈ ps, (p.option = false ∧ p.name ∉ st.parsed.map Prod.fst) ∧ p.default = [] then .raised
    else .ok { st with parsed := st.parsed ++ extra ++
      (ps.filter (fun p => decide (p.option = false ∧ p.name ∉ st.parsed.map Prod.fst))).map (fun p => (p.name, p.default)) }
  | [], extra, _, _ => by simp
  | p :: ps, extra, hn, he => by
    have raised : ∀ l : List Param, l.foldl (fun r p => r.bind fun st =>
      if p.option then .ok st
      else if (st.parsed.find? fun e => e.1 = p.name).isSome then .ok st
      else if p.default = [] then .raised
      else .ok { st with parsed := st.parsed ++ [(p.name, p.default)] }) (R.raised : R St) = .raised := by
      intro l
      induction l with
      | nil => rfl
      | cons a l ih => simpa using ih
    simp only [List.map_cons, List.nodup_cons] at hn
    have hpe : p.name ∉ extra.map Prod.fst := he p (by simp)
    have ih := validate_eq st ps extra hn.2 (fun q hq => he q (by simp [hq]))
    rw [List.foldl_cons, R.bind_ok]
    by_cases ho : p.option = true
    · rw [if_pos ho, ih]
      refine ite_congr (propext ?_) (fun _ => rfl) (fun _ => ?_)
      · simp only [List.mem_cons, exists_eq_or_imp, ho, Bool.true_eq_false, false_and, false_or]
      · rw [List.filter_cons, if_neg (by simp [ho])]
    · rw [if_neg ho]
      have ho' : p.option = false := by simpa using ho
      by_cases hm : p.name ∈ st.parsed.map Prod.fst
      · rw [if_pos (by rw [find_name]; simp only [List.map_append, List.mem_append]; exact .inl hm), ih]
        refine ite_congr (propext ?_) (fun _ => rfl) (fun _ => ?_)
        · simp only [List.mem_cons, exists_eq_or_imp, hm, not_true_eq_false, and_false, false_and, false_or]
        · rw [List.filter_cons, if_neg (by simp only [decide_eq_true_eq]; exact fun h => h.2 hm)]
      · rw [if_neg (by rw [find_name]; simp only [List.map_append, List.mem_append]; exact not_or.2 ⟨hm, hpe⟩)]
        by_cases hd : p.default = []
        · rw [if_pos hd, raised, if_pos ⟨p, by simp, ⟨ho', hm⟩, hd⟩]
        · rw [if_neg hd]
          have := validate_eq st ps (extra ++ [(p.name, p.default)]) hn.2 (by
            intro q hq
            simp only [List.map_append, List.map_cons, List.map_nil, List.mem_append, List.mem_singleton, not_or]
            refine ⟨he q (by simp [hq]), fun e => hn.1 ?_⟩
            rw [← e]; exact List.mem_map.2 ⟨q, hq, rfl⟩)
          rw [show ({ st with parsed := st.parsed ++ extra ++ [(p.name, p.default)] } : St) =
            { st with parsed := st.parsed ++ (extra ++ [(p.name, p.default)]) } by simp, this]
          refine ite_congr (propext ?_) (fun _ => rfl) (fun _ => ?_)
          · simp only [List.mem_cons, exists_eq_or_imp, hd, and_false, false_or]
          · rw [List.filter_cons, if_pos (by simp only [decide_eq_true_eq]; exact ⟨ho', hm⟩)]
            simp

theorem validate_outcome (ps : List Param) (hps : ParamsOk ps) (items : List Item) (rest : List Str) :
    validate ps ⟨(items.map Item.values).flatten, (items.map Item.positional).flatten, rest⟩ = outcome ps items rest := by
  have := validate_eq ⟨(items.map Item.values).flatten, (items.map Item.positional).flatten, rest⟩ ps [] hps.1 (by simp)
  simp only [List.append_nil] at this
  unfold validate outcome Missing
  rw [this]

theorem idx_small (k : Nat) (h : k < 128) : ((BitVec.ofNat 8 k).signExtend 64).toNat = k := by
  have : (BitVec.ofNat 8 k).toNat = k := by simp; omega
  rw [BitVec.toNat_signExtend]
  have hm : (BitVec.ofNat 8 k).msb = false := by
    rw [BitVec.msb_eq_decide]; simp; omega
  rw [hm]
  simp; omega

theorem idx_wrap : ((BitVec.ofNat 8 128).signExtend 64).toNat = 2 ^ 64 - 128 := by decide

theorem cut_suffix (a : Str) (ha : 61 ∉ a) (how : How) : cut (a ++ how.suffix) = (a, match how with | .eq v => v | _ => []) := by
  unfold cut
  have hn : ∀ l : Str, 61 ∉ l → l.findIdx? (· = 61) = none := by
    intro l hl
    rw [List.findIdx?_eq_none_iff]
    intro x hx
    simp; rintro rfl; exact hl hx
  cases how with
  | none => simp [How.suffix, hn a ha]
  | next v => simp [How.suffix, hn a ha]
  | eq v =>
    have : (a ++ 61 :: v).findIdx? (· = 61) = some a.length := by
      rw [List.findIdx?_append, hn a ha]; simp [List.findIdx?_cons]
    simp [How.suffix, this]

theorem multiple_ok (ps : List Param) : ∀ (front : List Param) (st : St),
    (∀ q ∈ front, byFlag ps q.sf = some q) → (∀ q ∈ front, q.option = true) →
    (st.parsed.map Prod.fst ++ front.map Param.name).Nodup →
    multiple ps (front.map Param.sf) st = .ok { st with parsed := st.parsed ++ front.map (fun q => (q.name, [])) }
  | [], st, _, _, _ => by simp [multiple]
  | q :: front, st, h1, h2, h3 => by
    simp only [List.map_cons, multiple]
    rw [h1 q (by simp)]
    simp only
    rw [if_pos (h2 q (by simp))]
    have hnot : q.name ∉ st.parsed.map Prod.fst := by
      intro hm
      have := (List.nodup_append.mp h3).2.2 _ hm _ (by simp : q.name ∈ List.map Param.name (q :: front))
      exact this rfl
    rw [addParsed, if_neg (by
      simp only [List.mem_map] at hnot
      simp only [Option.not_isSome_iff_eq_none, List.find?_eq_none]
      intro e he heq
      exact hnot ⟨e, he, by simpa using heq⟩)]
    rw [R.bind_ok, multiple_ok ps front _ (fun r hr => h1 r (by simp [hr])) (fun r hr => h2 r (by simp [hr])) (by simpa using h3)]
    simp

theorem addParsed_ok (st : St) (n v : Str) (h : n ∉ st.parsed.map Prod.fst) :
    addParsed st n v = .ok { st with parsed := st.parsed ++ [(n, v)] } := by
  rw [addParsed, if_neg]
  simp only [List.mem_map] at h
  simp only [Option.not_isSome_iff_eq_none, List.find?_eq_none]
  intro e he heq
  exact h ⟨e, he, by simpa using heq⟩

/-- The value written with `=`. -/
def How.inline : How → Str
  | .eq v => v
  | _ => []

theorem classify_long (ps : List Param) (hps : ParamsOk ps) (p : Param) (how : How) (st : St) (h : ItemOk ps (.long p how)) :
    classify ps (45 :: 45 :: p.name ++ how.suffix) st = .ok (st, .param p how.inline) := by
  obtain ⟨h1, h2, h3, h4⟩ := h
  unfold classify
  have hc := cut_suffix (45 :: 45 :: p.name) (by simp [h3]) how
  rw [hc]
  simp only
  rw [if_pos (by simp [at']), if_neg (by simpa using h2)]
  simp only [List.drop_succ_cons, List.drop_zero, byName_of_mem hps h1]
  cases how <;> rfl

theorem classify_short (ps : List Param) (hps : ParamsOk ps) (front : List Param) (p : Param) (how : How) (st : St) (h : ItemOk ps (.short front p how))
    (hn : (st.parsed.map Prod.fst ++ front.map Param.name).Nodup) :
    classify ps (45 :: (front.map Param.sf ++ [p.sf]) ++ how.suffix) st =
      .ok ({ st with parsed := st.parsed ++ front.map (fun q => (q.name, [])) }, .param p how.inline) := by
  obtain ⟨h1, h2, h3, h4⟩ := h
  have h61 : 61 ∉ 45 :: (front.map Param.sf ++ [p.sf]) := by
    intro hm
    simp only [List.mem_cons, List.mem_append, List.mem_map, List.not_mem_nil, or_false] at hm
    rcases hm with h | ⟨q, hq, e⟩ | e
    · omega
    · exact (h1 q (by simp [hq])).2.2 e
    · exact (h1 p (by simp)).2.2 e.symm
  unfold classify
  rw [cut_suffix _ h61 how]
  simp only
  have hat : at' (45 :: (front.map Param.sf ++ [p.sf]) ++ how.suffix) 1 ≠ 45 := by
    cases front with
    | nil => simpa [at'] using h3
    | cons q qs => simpa [at'] using h3
  rw [if_neg hat]
  simp only [List.drop_succ_cons, List.drop_zero, List.getLast?_append, List.getLast?_singleton, Option.some_or]
  have hm : (if 1 < (List.map Param.sf front ++ [p.sf]).length then
      multiple ps (List.map Param.sf front ++ [p.sf]).dropLast st else R.ok st) =
      .ok { st with parsed := st.parsed ++ front.map (fun q => (q.name, [])) } := by
    rw [List.dropLast_concat]
    cases front with
    | nil => simp
    | cons q qs =>
      rw [if_pos (by simp)]
      exact multiple_ok ps (q :: qs) st (fun r hr => byFlag_of_mem hps (h1 r (List.mem_append_left _ hr)).1
        (h1 r (List.mem_append_left _ hr)).2.1) h2 hn
  rw [hm, R.bind_ok, byFlag_of_mem hps (h1 p (by simp)).1 (h1 p (by simp)).2.1]
  simp only
  cases how <;> rfl

/-- After an argument that names `p`, the parameter is recorded and the parser goes on behind its value. -/
theorem after_param (ps : List Param) (args : List Str) (f k : Nat) (p : Param) (how : How) (hk : k + 1 + how.extra.length ≤ 128) (st st' : St)
    (full : Str) (hget : args[k]? = some full) (h0 : at' full 0 = 45) (hc : classify ps full st = .ok (st', .param p how.inline))
    (hok : HowOk p how) (hn : p.name ∉ st'.parsed.map Prod.fst) (hx : ∀ v, how = .next v → args[k + 1]? = some v) :
    loop ps args (f + 1) (BitVec.ofNat 8 k) st =
      loop ps args f (BitVec.ofNat 8 (k + 1 + how.extra.length)) { st' with parsed := st'.parsed ++ [(p.name, how.value)] } := by
  have hi1 : BitVec.ofNat 8 k + 1 = BitVec.ofNat 8 (k + 1) := by rw [← BitVec.ofNat_add_ofNat]; rfl
  have hi2 : BitVec.ofNat 8 k + 2 = BitVec.ofNat 8 (k + 2) := by rw [← BitVec.ofNat_add_ofNat]; rfl
  rw [loop, idx_small k (by omega), hget]
  simp only
  rw [if_neg (by simpa using h0), hc, R.bind_ok]
  simp only
  cases how with
  | none =>
    simp only [HowOk] at hok
    rw [if_pos hok, if_neg (by simp [How.inline]), addParsed_ok st' _ _ hn, R.bind_ok, hi1]
    rfl
  | eq v =>
    simp only [HowOk] at hok
    rw [if_neg (by simp [hok.1]), if_neg (by simpa [How.inline] using hok.2), addParsed_ok st' _ _ hn, R.bind_ok, hi1]
    rfl
  | next v =>
    simp only [HowOk] at hok
    simp only [How.extra, List.length_singleton] at hk
    rw [if_neg (by simp [hok.1]), if_pos (by simp [How.inline]), hi1, idx_small (k + 1) (by omega), hx v rfl]
    simp only
    rw [if_neg (by rw [head_iff _ _ (by decide)]; exact hok.2), addParsed_ok st' _ _ hn, R.bind_ok, hi2]
    rfl

/-- The loop goes over a supported line item by item. -/
theorem loop_items (ps : List Param) (hps : ParamsOk ps) : ∀ (items : List Item) (pre tail : List Str) (f : Nat) (st : St),
    (∀ x ∈ items, ItemOk ps x) → (st.parsed.map Prod.fst ++ (items.map Item.values).flatten.map Prod.fst).Nodup →
    pre.length + (renderAll items).length ≤ 128 →
    loop ps (pre ++ renderAll items ++ tail) (f + items.length) (BitVec.ofNat 8 pre.length) st =
      loop ps (pre ++ renderAll items ++ tail) f (BitVec.ofNat 8 (pre.length + (renderAll items).length))
        ⟨st.parsed ++ (items.map Item.values).flatten, st.positionals ++ (items.map Item.positional).flatten, st.rest⟩
  | [], pre, tail, f, st, _, _, _ => by simp [renderAll]
  | x :: items, pre, tail, f, st, hx, hn, hl => by
    have hr : renderAll (x :: items) = x.render ++ renderAll items := by simp [renderAll]
    rw [hr] at hl ⊢
    simp only [List.length_append] at hl
    have hargs : pre ++ (x.render ++ renderAll items) ++ tail = (pre ++ x.render) ++ renderAll items ++ tail := by simp
    have hstep : ∀ st2 : St, st2.parsed = st.parsed ++ x.values →
        loop ps ((pre ++ x.render) ++ renderAll items ++ tail) (f + items.length + 1) (BitVec.ofNat 8 pre.length) st =
          loop ps ((pre ++ x.render) ++ renderAll items ++ tail) (f + items.length) (BitVec.ofNat 8 (pre.length + x.render.length)) st2 →
        st2.positionals = st.positionals ++ x.positional → st2.rest = st.rest →
        loop ps (pre ++ (x.render ++ renderAll items) ++ tail) (f + (x :: items).length) (BitVec.ofNat 8 pre.length) st =
          loop ps (pre ++ (x.render ++ renderAll items) ++ tail) f (BitVec.ofNat 8 (pre.length + (x.render ++ renderAll items).length))
            ⟨st.parsed ++ ((x :: items).map Item.values).flatten, st.positionals ++ ((x :: items).map Item.positional).flatten, st.rest⟩ := by
      intro st2 e1 e2 e3 e4
      rw [hargs, show f + (x :: items).length = f + items.length + 1 by simp; omega, e2,
        show pre.length + x.render.length = (pre ++ x.render).length by simp,
        loop_items ps hps items (pre ++ x.render) tail f st2 (fun y hy => hx y (by simp [hy]))
          (by rw [e1]; simpa using hn) (by simp; omega), e1, e3, e4]
      congr 2 <;> simp <;> omega
    have hokx := hx x (by simp)
    cases x with
    | pos s =>
      refine hstep { st with positionals := st.positionals ++ [s] } (by simp [Item.values]) ?_ rfl rfl
      rw [loop, idx_small _ (by simp [Item.render] at hl; omega)]
      simp only [Item.render, List.append_assoc, List.getElem?_append_right (Nat.le_refl _), Nat.sub_self, List.cons_append,
        List.getElem?_cons_zero, List.nil_append]
      rw [if_pos (show at' s 0 ≠ 45 by rw [ne_eq, head_iff _ _ (by decide)]; exact hokx), show pre.length + [s].length = pre.length + 1 from rfl, ← BitVec.ofNat_add_ofNat]
      rfl
    | long p how =>
      have hfull : ((pre ++ (Item.long p how).render) ++ renderAll items ++ tail)[pre.length]? = some (45 :: 45 :: p.name ++ how.suffix) := by
        simp [Item.render]
      refine hstep { st with parsed := st.parsed ++ [(p.name, how.value)] } (by simp [Item.values]) ?_ (by simp [Item.positional]) rfl
      rw [after_param ps _ _ pre.length p how (by simp [Item.render] at hl; omega) st st _ hfull (by simp [at'])
        (classify_long ps hps p how st hokx) hokx.2.2.2 (by
          intro hm
          have := (List.nodup_append.mp hn).2.2 _ hm p.name (by simp [Item.values])
          exact this rfl) (by
          rintro v rfl
          simp [Item.render, How.extra])]
      congr 2
      simp [Item.render]; omega
    | short front p how =>
      have hfull : ((pre ++ (Item.short front p how).render) ++ renderAll items ++ tail)[pre.length]? =
          some (45 :: (front.map Param.sf ++ [p.sf]) ++ how.suffix) := by
        simp [Item.render]
      have hn1 : (st.parsed.map Prod.fst ++ front.map Param.name ++ [p.name] ++ (items.map Item.values).flatten.map Prod.fst).Nodup := by
        have e : front.map Param.name = (front.map fun q => (q.name, ([] : Str))).map Prod.fst := by simp
        have : st.parsed.map Prod.fst ++ ((Item.short front p how :: items).map Item.values).flatten.map Prod.fst =
            st.parsed.map Prod.fst ++ front.map Param.name ++ [p.name] ++ (items.map Item.values).flatten.map Prod.fst := by
          rw [e]; simp [Item.values]
        rw [← this]; exact hn
      have hn2 := (List.nodup_append.mp hn1).1
      have hn3 := (List.nodup_append.mp hn2).1
      refine hstep { st with parsed := st.parsed ++ front.map (fun q => (q.name, [])) ++ [(p.name, how.value)] }
        (by simp [Item.values]) ?_ (by simp [Item.positional]) rfl
      rw [after_param ps _ _ pre.length p how (by simp [Item.render] at hl; omega) st _ _ hfull (by simp [at'])
        (classify_short ps hps front p how st hokx hn3) hokx.2.2.2 (by
          intro hm
          have hm' : p.name ∈ st.parsed.map Prod.fst ++ front.map Param.name := by
            have e : front.map Param.name = (front.map fun q => (q.name, ([] : Str))).map Prod.fst := by simp
            rw [e]; simpa using hm
          exact (List.nodup_append.mp hn2).2.2 _ hm' p.name (by simp) rfl) (by
          rintro v rfl
          simp [Item.render, How.extra])]
      congr 2
      simp [Item.render]; omega

/-- What a supported line should deliver. -/
def delivered (items : List Item) : St := ⟨(items.map Item.values).flatten, (items.map Item.positional).flatten, []⟩

theorem items_le (items : List Item) : items.length ≤ (renderAll items).length := by
  induction items with
  | nil => simp
  | cons x items ih =>
    have : 1 ≤ x.render.length := by cases x <;> simp [Item.render]
    simp only [renderAll, List.map_cons, List.flatten_cons, List.length_append, List.length_cons] at ih ⊢
    omega

theorem loop_line (ps : List Param) (hps : ParamsOk ps) (items : List Item) (tail : List Str) (h : LineOk ps items) (hl : (renderAll items).length ≤ 128) :
    loop ps (renderAll items ++ tail) 256 0 ⟨[], [], []⟩ =
      loop ps (renderAll items ++ tail) (256 - items.length) (BitVec.ofNat 8 (renderAll items).length) (delivered items) := by
  have := loop_items ps hps items [] tail (256 - items.length) ⟨[], [], []⟩ h.1 (by simpa using h.2) (by simpa using hl)
  have hi := items_le items
  rw [show 256 - items.length + items.length = 256 by omega] at this
  simpa [delivered] using this

/-- **C90 (partial).** A supported command line of at most 128 arguments is parsed to exactly what was written: every
option and every value, in order, every positional argument, in order, and the default of every parameter that was not
given; it is rejected exactly if a value without a default is missing.  Missing: longer command lines (`long_line_cut`). -/
theorem line_delivered_partial (ps : List Param) (hps : ParamsOk ps) (items : List Item) (h : LineOk ps items)
    (hl : (renderAll items).length ≤ 128) : parse ps (renderAll items) = outcome ps items [] := by
  rw [← validate_outcome ps hps]
  have h1 := loop_line ps hps items [] h hl
  have hi := items_le items
  rw [List.append_nil] at h1
  unfold parse
  rw [h1]
  obtain ⟨n, hn⟩ : ∃ n, 256 - items.length = n + 1 := ⟨255 - items.length, by omega⟩
  rw [hn, loop]
  have : (renderAll items)[((BitVec.ofNat 8 (renderAll items).length).signExtend 64).toNat]? = none := by
    rw [List.getElem?_eq_none_iff]
    by_cases hlt : (renderAll items).length < 128
    · rw [idx_small _ hlt]; exact Nat.le_refl _
    · rw [show (renderAll items).length = 128 by omega, idx_wrap]; omega
  rw [this]
  rfl

/-- **C90 fails** beyond 128 arguments: the rest of the command line is silently ignored. -/
theorem long_line_cut (ps : List Param) (hps : ParamsOk ps) (items : List Item) (more : List Str) (h : LineOk ps items)
    (hl : (renderAll items).length = 128) (hm : more.length < 2 ^ 63) :
    parse ps (renderAll items ++ more) = parse ps (renderAll items) := by
  rw [line_delivered_partial ps hps items h (by omega), ← validate_outcome ps hps]
  have h1 := loop_line ps hps items more h (by omega)
  have hi := items_le items
  unfold parse
  rw [h1]
  obtain ⟨n, hn⟩ : ∃ n, 256 - items.length = n + 1 := ⟨255 - items.length, by omega⟩
  rw [hn, loop, hl, idx_wrap]
  have : (renderAll items ++ more)[2 ^ 64 - 128]? = none := by
    rw [List.getElem?_eq_none_iff, List.length_append, hl]; omega
  rw [this]
  rfl

/-- The loop of `populateRest` started inside the arguments. -/
theorem restLoop_ok (args : List Str) (hlen : args.length < 2 ^ 63) : ∀ (n k : Nat) (st : St) (f : Nat), k + n = args.length → n < f →
    restLoop args f (BitVec.ofNat 64 k) st = .ok { st with rest := st.rest ++ args.drop k }
  | 0, k, st, f + 1, hk, _ => by
    have : k = args.length := by omega
    subst this
    simp [restLoop]
  | n + 1, k, st, f + 1, hk, hf => by
    rw [restLoop, if_neg (by
      intro h
      have := congrArg BitVec.toNat h
      simp only [BitVec.toNat_ofNat] at this
      rw [Nat.mod_eq_of_lt (by omega), Nat.mod_eq_of_lt (by omega)] at this
      omega)]
    have hg : args[(BitVec.ofNat 64 k).toNat]? = some (args[k]'(by omega)) := by
      rw [BitVec.toNat_ofNat, Nat.mod_eq_of_lt (by omega), List.getElem?_eq_getElem]
    rw [hg]
    simp only
    have hi : BitVec.ofNat 64 k + 1 = BitVec.ofNat 64 (k + 1) := by rw [← BitVec.ofNat_add_ofNat]; rfl
    rw [hi, restLoop_ok args hlen n (k + 1) _ f (by omega) (by omega)]
    simp only [List.append_assoc, List.singleton_append]
    rw [List.getElem_cons_drop]

theorem loop_at_rest (ps : List Param) (args : List Str) (f k : Nat) (hk : k < 128) (st : St) (hget : args[k]? = some [45, 45]) :
    loop ps args (f + 1) (BitVec.ofNat 8 k) st = populateRest args (BitVec.ofNat 8 (k + 1)) st := by
  have hi1 : BitVec.ofNat 8 k + 1 = BitVec.ofNat 8 (k + 1) := by rw [← BitVec.ofNat_add_ofNat]; rfl
  rw [loop, idx_small k hk, hget]
  simp only
  rw [if_neg (by simp [at']), show classify ps [45, 45] st = .ok (st, .rest) by
    simp [classify, at', show cut [45, 45] = ([45, 45], []) by decide], R.bind_ok, hi1]

/-- **C46 fails.** Whatever comes before, of the arguments after `--` the first one is lost and the others arrive in order;
with nothing after `--` the program aborts. -/
theorem rest_loses_first (ps : List Param) (hps : ParamsOk ps) (items : List Item) (a : Str) (rest : List Str) (h : LineOk ps items)
    (hl : (renderAll items).length ≤ 125) (hr : rest.length < 2 ^ 62) :
    parse ps (renderAll items ++ [[45, 45]] ++ a :: rest) = outcome ps items rest ∧
    parse ps (renderAll items ++ [[45, 45]]) = .abort := by
  have hi := items_le items
  obtain ⟨n, hn⟩ : ∃ n, 256 - items.length = n + 1 := ⟨255 - items.length, by omega⟩
  have hi2 : ∀ k, BitVec.ofNat 8 k + 1 = BitVec.ofNat 8 (k + 1) := by intro k; rw [← BitVec.ofNat_add_ofNat]; rfl
  have hse : ((BitVec.ofNat 8 ((renderAll items).length + 1) + 1).signExtend 64) = BitVec.ofNat 64 ((renderAll items).length + 2) := by
    apply BitVec.eq_of_toNat_eq
    rw [hi2, idx_small _ (by omega), BitVec.toNat_ofNat, Nat.mod_eq_of_lt (by omega)]
  constructor
  · rw [← validate_outcome ps hps]
    unfold parse
    rw [List.append_assoc, loop_line ps hps items _ h (by omega), hn,
      loop_at_rest ps _ n _ (by omega) _ (by simp), populateRest, hse,
      restLoop_ok _ (by simp; omega) rest.length _ _ _ (by simp; omega) (by simp; omega), R.bind_ok]
    congr 1
    simp [delivered, List.drop_append]
  · unfold parse
    rw [loop_line ps hps items _ h (by omega), hn, loop_at_rest ps _ n _ (by omega) _ (by simp), populateRest, hse, restLoop]
    rw [if_neg (by
      intro he
      have := congrArg BitVec.toNat he
      simp only [BitVec.toNat_ofNat, List.length_append, List.length_singleton] at this
      rw [Nat.mod_eq_of_lt (by omega), Nat.mod_eq_of_lt (by omega)] at this
      omega)]
    have : (renderAll items ++ [[45, 45]])[(BitVec.ofNat 64 ((renderAll items).length + 2)).toNat]? = none := by
      rw [List.getElem?_eq_none_iff, BitVec.toNat_ofNat, Nat.mod_eq_of_lt (by omega)]; simp
    rw [this]
    rfl

/-- **C46 (partial).** Everything after `--` but the first argument is delivered, in order. -/
theorem rest_delivered_partial (ps : List Param) (hps : ParamsOk ps) (items : List Item) (a : Str) (rest : List Str) (h : LineOk ps items)
    (hl : (renderAll items).length ≤ 125) (hr : rest.length < 2 ^ 62) :
    parse ps (renderAll items ++ [[45, 45]] ++ a :: rest) = outcome ps items rest :=
  (rest_loses_first ps hps items a rest h hl hr).1

/-- The parameters `out` (short `o`, takes a value), `all` (short `a`) and `big` (short `b`). -/
def demo : List Param := [⟨[111, 117, 116], 111, false, []⟩, ⟨[97, 108, 108], 97, true, []⟩, ⟨[98, 105, 103], 98, true, []⟩]

/-- `x -abo f` -/
def demoLine : List Item := [.pos [120], .short [demo[1], demo[2]] demo[0] (.next [102])]

example : ParamsOk demo ∧ LineOk demo demoLine ∧ renderAll demoLine = [[120], [45, 97, 98, 111], [102]] ∧
    parse demo (renderAll demoLine) = .ok ⟨[([97, 108, 108], []), ([98, 105, 103], []), ([111, 117, 116], [102])], [[120]], []⟩ := by
  refine ⟨⟨by decide, by decide⟩, ⟨?_, by decide⟩, by decide, by decide⟩
  intro x hx
  simp only [demoLine, List.mem_cons, List.not_mem_nil, or_false] at hx
  rcases hx with rfl | rfl
  · simp [ItemOk]
  · refine ⟨by decide, by decide, by decide, ?_⟩
    exact ⟨rfl, by decide⟩

end Verif.Args
