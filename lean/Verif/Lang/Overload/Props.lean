import Verif.Lang.Overload.Model
/-! # C85: overload resolution picks a declaration that takes the call -/
namespace Verif.Overload

/-- The declaration takes this number of arguments. -/
def TakesCount {T : Type} (d : Decl T) (n : Nat) : Prop :=
  if d.variadic then d.params.length - 1 - d.defaults ≤ n
  else d.params.length - d.defaults ≤ n ∧ n ≤ d.params.length

/-- The parameters that arguments are matched with. -/
def fixed {T : Type} (d : Decl T) : List T := if d.variadic then d.params.take (d.params.length - 1) else d.params

/-- A candidate takes the call: the number of arguments fits, and each argument with a parameter of its own is identical
to it or, unless a perfect match is wanted, converts to it. -/
def Takes {T : Type} (conv : T → T → Bool) (perfect : Bool) (d : Decl T) (args : List T) : Prop :=
  d.skip = false ∧ TakesCount d args.length ∧
    ∀ x ∈ (fixed d).zip args, x.1 = x.2 ∨ (perfect = false ∧ conv x.1 x.2 = true)

/-- The number of arguments that have to be converted. -/
def conversions {T : Type} [DecidableEq T] (d : Decl T) (args : List T) : Nat :=
  ((fixed d).zip args).countP (fun x => decide (x.1 ≠ x.2))

variable {T : Type} [DecidableEq T]

theorem score_spec (conv : T → T → Bool) (perfect : Bool) : ∀ (ps as : List T),
    (∀ k, score conv perfect ps as = some k →
      (∀ x ∈ ps.zip as, x.1 = x.2 ∨ (perfect = false ∧ conv x.1 x.2 = true)) ∧
      k = (ps.zip as).countP (fun x => decide (x.1 ≠ x.2))) ∧
    (score conv perfect ps as = none → ∃ x ∈ ps.zip as, ¬ (x.1 = x.2 ∨ (perfect = false ∧ conv x.1 x.2 = true)))
  | [], as => by simp [score]
  | p :: ps, [] => by simp [score]
  | p :: ps, a :: as => by
    obtain ⟨h1, h2⟩ := score_spec conv perfect ps as
    unfold score
    by_cases hpa : p = a
    · subst hpa
      simp only [if_true]
      constructor
      · intro k hk
        obtain ⟨ha, hb⟩ := h1 k hk
        refine ⟨?_, by simp [hb]⟩
        intro x hx
        simp at hx
        rcases hx with rfl | hx
        · simp
        · exact ha x hx
      · intro hn
        obtain ⟨x, hx, hc⟩ := h2 hn
        exact ⟨x, by simp [hx], hc⟩
    · rw [if_neg hpa]
      by_cases hp : perfect = true
      · rw [if_pos hp]
        exact ⟨by simp, fun _ => ⟨(p, a), by simp, by simp [hpa, hp]⟩⟩
      · rw [if_neg hp]
        by_cases hc : conv p a = true
        · rw [if_pos hc]
          constructor
          · intro k hk
            rw [Option.map_eq_some_iff] at hk
            obtain ⟨m, hm, rfl⟩ := hk
            obtain ⟨ha, hb⟩ := h1 m hm
            refine ⟨?_, by simp [hb, hpa]⟩
            intro x hx
            simp at hx
            rcases hx with rfl | hx
            · exact .inr ⟨by simpa using hp, hc⟩
            · exact ha x hx
          · intro hn
            obtain ⟨x, hx, hcx⟩ := h2 (by simpa using hn)
            exact ⟨x, by simp [hx], hcx⟩
        · rw [if_neg hc]
          exact ⟨by simp, fun _ => ⟨(p, a), by simp, by simp [hpa, hc]⟩⟩

theorem zip_take_len {α β : Type} : ∀ (xs : List α) (ys : List β) (n : Nat), xs.zip (ys.take n) = (xs.take n).zip ys
  | [], ys, n => by simp
  | x :: xs, [], n => by simp
  | x :: xs, y :: ys, 0 => by simp
  | x :: xs, y :: ys, n + 1 => by simp [zip_take_len xs ys n]

omit [DecidableEq T] in
/-- The arguments the code looks at are matched with the fixed parameters. -/
theorem looked_at (d : Decl T) (args : List T) :
    d.params.zip (args.take (if d.variadic then min args.length (d.params.length - 1) else args.length)) =
      (fixed d).zip args := by
  unfold fixed
  by_cases hv : d.variadic = true
  · simp only [hv, if_true]
    rw [zip_take_len]
    rcases Nat.le_total args.length (d.params.length - 1) with h | h
    · rw [Nat.min_eq_left h, ← zip_take_len, List.take_length]
      rw [← zip_take_len, List.take_of_length_le h]
    · rw [Nat.min_eq_right h]
  · simp [hv]

/-- A call with `args.length` arguments passes the check on their number exactly if the declaration takes that number. -/
theorem count_check (d : Decl T) (n : Nat) (hd : d.variadic = true → 1 ≤ d.params.length) :
    ¬ ((if d.variadic then min n (d.params.length - 1) else n) <
          d.params.length - d.defaults - (if d.variadic then 1 else 0) ∨
        d.params.length < (if d.variadic then min n (d.params.length - 1) else n)) ↔ TakesCount d n := by
  unfold TakesCount
  by_cases hv : d.variadic = true
  · have := hd hv
    simp only [hv, if_true]
    omega
  · simp only [hv]
    simp

/-- What has been found so far. -/
def Best (conv : T → T → Bool) (perfect : Bool) (args : List T) (seen : List (Decl T)) (matchScore : Nat) :
    Option (Decl T) → Prop
  | none => (∀ d ∈ seen, ¬ Takes conv perfect d args) ∧ matchScore = 0
  | some b => b ∈ seen ∧ Takes conv perfect b args ∧ matchScore + conversions b args = args.length * 2 ∧
      ∀ d ∈ seen, Takes conv perfect d args → conversions b args ≤ conversions d args

theorem conversions_le (d : Decl T) (args : List T) : conversions d args ≤ args.length := by
  unfold conversions
  refine Nat.le_trans List.countP_le_length ?_
  rw [List.length_zip]; omega

/-- Well-formed: a variadic function has the parameter that stands for the variable part. -/
def WF (d : Decl T) : Prop := d.variadic = true → 1 ≤ d.params.length

theorem search_spec (conv : T → T → Bool) (perfect : Bool) (args : List T) :
    ∀ (ds seen : List (Decl T)) (ms : Nat) (found : Option (Decl T)),
    (∀ d ∈ ds, WF d) →
    (∀ d ∈ ds.dropLast, d.skip = false → d.variadic = true → args.length ≤ d.params.length - 1) →
    Best conv perfect args seen ms found →
    match search conv perfect args (args.length * 2) ds args.length ms found with
    | none => ∀ d ∈ seen ++ ds, ¬ Takes conv perfect d args
    | some b => b ∈ seen ++ ds ∧ Takes conv perfect b args ∧
        ∀ d ∈ seen ++ ds, Takes conv perfect d args → conversions b args ≤ conversions d args
  | [], seen, ms, found, _, _, hb => by
    unfold search
    cases found with
    | none => simpa using hb.1
    | some b => simpa using ⟨hb.1, hb.2.1, hb.2.2.2⟩
  | d :: ds, seen, ms, found, hwf, hlast, hb => by
    have happ : seen ++ d :: ds = (seen ++ [d]) ++ ds := by simp
    have hwf' : ∀ x ∈ ds, WF x := fun x hx => hwf x (by simp [hx])
    have hlast' : ∀ x ∈ ds.dropLast, x.skip = false → x.variadic = true → args.length ≤ x.params.length - 1 := by
      intro x hx
      refine hlast x ?_
      cases ds with
      | nil => simp at hx
      | cons e es => rw [List.dropLast_cons_cons]; exact List.mem_cons_of_mem _ hx
    -- a candidate that is refused
    have hrefuse : ¬ Takes conv perfect d args → Best conv perfect args (seen ++ [d]) ms found := by
      intro hno
      cases found with
      | none =>
        refine ⟨fun x hx => ?_, hb.2⟩
        rcases List.mem_append.1 hx with h | h
        · exact hb.1 x h
        · simp at h; subst h; exact hno
      | some b =>
        refine ⟨by simp [hb.1], hb.2.1, hb.2.2.1, fun x hx ht => ?_⟩
        rcases List.mem_append.1 hx with h | h
        · exact hb.2.2.2 x h ht
        · simp at h; subst h; exact absurd ht hno
    -- the count is still the number of arguments, or nothing is left to look at
    have hcount : d.skip = false → ds = [] ∨
        (if d.variadic then min args.length (d.params.length - 1) else args.length) = args.length := by
      intro hs
      cases ds with
      | nil => exact .inl rfl
      | cons e es =>
        right
        by_cases hv : d.variadic = true
        · have := hlast d (by rw [List.dropLast_cons_cons]; simp) hs hv
          rw [if_pos hv]; omega
        · rw [if_neg hv]
    rw [happ]
    unfold search
    by_cases hs : d.skip = true
    · rw [if_pos hs]
      exact search_spec conv perfect args ds _ ms found hwf' hlast' (hrefuse (fun h => absurd h.1 (by simp [hs])))
    · rw [if_neg hs]
      have hs : d.skip = false := by simpa using hs
      have hck := count_check d args.length (hwf d (by simp))
      have hla := looked_at d args
      have hcont : ∀ ms' found', Best conv perfect args (seen ++ [d]) ms' found' →
          match search conv perfect args (args.length * 2) ds
            (if d.variadic then min args.length (d.params.length - 1) else args.length) ms' found' with
          | none => ∀ d' ∈ seen ++ [d] ++ ds, ¬ Takes conv perfect d' args
          | some b => b ∈ seen ++ [d] ++ ds ∧ Takes conv perfect b args ∧
              ∀ d' ∈ seen ++ [d] ++ ds, Takes conv perfect d' args → conversions b args ≤ conversions d' args := by
        intro ms' found' hb'
        rcases hcount hs with h | h
        · subst h
          have := search_spec conv perfect args [] _ ms' found' hwf' hlast' hb'
          unfold search at this ⊢
          exact this
        · rw [h]
          exact search_spec conv perfect args ds _ ms' found' hwf' hlast' hb'
      simp only []
      generalize hcnt : (if d.variadic then min args.length (d.params.length - 1) else args.length) = cnt at *
      by_cases hc : cnt < d.params.length - d.defaults - (if d.variadic then 1 else 0) ∨ d.params.length < cnt
      · rw [if_pos hc]
        exact hcont _ _ (hrefuse (fun h => (hck.2 h.2.1) hc))
      · rw [if_neg hc]
        have htc := hck.1 hc
        obtain ⟨hsome, hnone⟩ := score_spec conv perfect d.params (args.take cnt)
        rw [hla] at hsome hnone
        cases hsc : score conv perfect d.params (args.take cnt) with
        | none =>
          obtain ⟨x, hx, hno⟩ := hnone hsc
          exact hcont _ _ (hrefuse (fun h => hno (h.2.2 x hx)))
        | some k =>
          obtain ⟨hall, hk⟩ := hsome k hsc
          have hk : k = conversions d args := hk
          have htakes : Takes conv perfect d args := ⟨hs, htc, hall⟩
          have hle := conversions_le d args
          simp only []
          by_cases hk0 : k = 0
          · rw [if_pos hk0]
            exact ⟨by simp, htakes, fun x _ _ => by omega⟩
          · rw [if_neg hk0]
            by_cases hms : ms ≤ args.length * 2 - k
            · rw [if_pos hms]
              refine hcont _ _ ⟨by simp, htakes, by omega, fun x hx ht => ?_⟩
              rcases List.mem_append.1 hx with h | h
              · cases found with
                | none => exact absurd ht (hb.1 x h)
                | some b =>
                  have h1 := hb.2.2.1
                  have h2 := hb.2.2.2 x h ht
                  omega
              · simp at h; subst h; exact Nat.le_refl _
            · rw [if_neg hms]
              refine hcont _ _ ?_
              cases found with
              | none => have := hb.2; omega
              | some b =>
                refine ⟨by simp [hb.1], hb.2.1, hb.2.2.1, fun x hx ht => ?_⟩
                rcases List.mem_append.1 hx with h | h
                · exact hb.2.2.2 x h ht
                · simp at h; subst h
                  have h1 := hb.2.2.1
                  omega

/-- **C85, where it holds.**  If no declaration except the last is variadic and shorter than the call, then the result takes
the call and no other declaration takes it with fewer conversions; there is no result only if no declaration takes the
call.  (The full statement has no such hypothesis; see `variadic_spoils_count`.) -/
theorem resolution_best_partial (conv : T → T → Bool) (perfect : Bool) (decls : List (Decl T)) (args : List T)
    (hwf : ∀ d ∈ decls, WF d)
    (hvar : ∀ d ∈ decls.dropLast, d.skip = false → d.variadic = true → args.length ≤ d.params.length - 1) :
    match resolve conv perfect decls args with
    | none => ∀ d ∈ decls, ¬ Takes conv perfect d args
    | some b => b ∈ decls ∧ Takes conv perfect b args ∧
        ∀ d ∈ decls, Takes conv perfect d args → conversions b args ≤ conversions d args := by
  have h := search_spec conv perfect args decls [] 0 none hwf hvar (by simp [Best])
  simpa [resolve] using h

/-- `f(i64, i64)`, `f(i32, i64)` and `f(string, ...)` called with `(i32, i32)`: the second needs one conversion. -/
example : (resolve (fun p a => decide (a ≤ p)) false
    [⟨false, false, 0, [64, 64]⟩, ⟨false, false, 0, [32, 64]⟩, ⟨false, true, 0, [1, 0]⟩] [32, 32]).map (·.params) =
    some [32, 64] := by decide

/-- **C85 fails** after a variadic declaration.  For all types `a`, `b` and `v` where `b` does not convert to `a`, and every call
whose first argument is a `b` and which has more arguments: with `f(a, ...)` and `f(b)` declared in this order, the call
is resolved to the one-parameter function, which does not take it. -/
theorem variadic_spoils_count (conv : T → T → Bool) (perfect : Bool) (a b v : T) (hab : a ≠ b)
    (hconv : conv a b = false) (rest : List T) (hrest : rest ≠ []) :
    let decls : List (Decl T) := [⟨false, true, 0, [a, v]⟩, ⟨false, false, 0, [b]⟩]
    resolve conv perfect decls (b :: rest) = some ⟨false, false, 0, [b]⟩ ∧
      ¬ Takes conv perfect ⟨false, false, 0, [b]⟩ (b :: rest) ∧ ∀ d ∈ decls, WF d := by
  cases rest with
  | nil => exact absurd rfl hrest
  | cons r rs =>
    refine ⟨?_, ?_, ?_⟩
    · have : min (rs.length + 1 + 1) 1 = 1 := by omega
      simp [resolve, search, score, hab, hconv, this]
    · simp [Takes, TakesCount]
    · simp [WF]

/-- `f(string, ...)`, `f(i32)` and the call `f(1, 2, 3)`. -/
example : resolve (fun p a : Nat => decide (a = p)) false [⟨false, true, 0, [1, 0]⟩, ⟨false, false, 0, [32]⟩] [32, 32, 32] =
    some ⟨false, false, 0, [32]⟩ := (variadic_spoils_count _ _ 1 32 0 (by decide) (by decide) [32, 32] (by simp)).1

end Verif.Overload
