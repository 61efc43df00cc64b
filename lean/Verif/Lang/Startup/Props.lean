import Verif.Lang.Startup.Model

/-! # What module-level variables hold when `main` starts

C220: the value of every variable is exactly known: its initialiser is computed with the variables that are set later
still zero, so it is the value the initialiser has in the running program when it reads none of those.
C221: an initialiser that needs code to run is run, except inside a struct expression: there it goes to the C compiler as
it is and is rejected; and a variable without an initialiser crashes the compiler. -/

namespace Verif.Startup

/-! ## Specification -/

mutual
/-- The variables an expression reads, given the ones each function reads. -/
def reads (rf : Nat → List Nat) : Expr → List Nat
  | .lit _ => []
  | .func _ => []
  | .var x => [x]
  | .member e _ => reads rf e
  | .tuple es => readsAll rf es
  | .strct fs => readsAll rf fs
  | .fieldExpr e => reads rf e
  | .fieldDecl e => reads rf e
  | .array es => readsAll rf es
  | .cast e => reads rf e
  | .group e => reads rf e
  | .unary _ e => reads rf e
  | .binary _ a b => reads rf a ++ reads rf b
  | .call f es => rf f ++ readsAll rf es

def readsAll (rf : Nat → List Nat) : List Expr → List Nat
  | [] => []
  | e :: es => reads rf e ++ readsAll rf es
end

/-- The functions read no other variables than the ones listed. -/
def Respects (S : Sem) (rf : Nat → List Nat) : Prop :=
  ∀ f env env' args, (∀ y ∈ rf f, env y = env' y) → S.fn f env args = S.fn f env' args

/-- The variable is set by code: its initialiser is not a static one. -/
def SetByCode (d : Decl) : Prop := ∃ e, d.init = some e ∧ isStatic e = false

mutual
/-- No struct expression and no member access in it. -/
def plain : Expr → Bool
  | .lit _ => true
  | .func _ => true
  | .var _ => true
  | .member _ _ => false
  | .tuple es => plains es
  | .strct _ => false
  | .fieldExpr e => plain e
  | .fieldDecl e => plain e
  | .array es => plains es
  | .cast e => plain e
  | .group e => plain e
  | .unary _ e => plain e
  | .binary _ a b => plain a && plain b
  | .call _ es => plains es

def plains : List Expr → Bool
  | [] => true
  | e :: es => plain e && plains es
end

/-! ## Evaluation -/

mutual
theorem eval_congr {S : Sem} {rf : Nat → List Nat} (hS : Respects S rf) {env env' : Nat → Val} :
    ∀ e, (∀ y ∈ reads rf e, env y = env' y) → eval S env e = eval S env' e
  | .lit _, _ => rfl
  | .func _, _ => rfl
  | .var x, h => h x (by simp [reads])
  | .member e _, h => by rw [eval, eval, eval_congr hS e h]
  | .tuple es, h => by rw [eval, eval, evals_congr hS es h]
  | .strct es, h => by rw [eval, eval, evals_congr hS es h]
  | .fieldExpr e, h => by rw [eval, eval, eval_congr hS e h]
  | .fieldDecl e, h => by rw [eval, eval, eval_congr hS e h]
  | .array es, h => by rw [eval, eval, evals_congr hS es h]
  | .cast e, h => by rw [eval, eval, eval_congr hS e h]
  | .group e, h => by rw [eval, eval, eval_congr hS e h]
  | .unary _ e, h => by rw [eval, eval, eval_congr hS e h]
  | .binary _ a b, h => by
      rw [eval, eval, eval_congr hS a (fun y hy => h y (by rw [reads]; exact List.mem_append_left _ hy)),
        eval_congr hS b (fun y hy => h y (by rw [reads]; exact List.mem_append_right _ hy))]
  | .call f es, h => by
      rw [eval, eval, evals_congr hS es (fun y hy => h y (by rw [reads]; exact List.mem_append_right _ hy)),
        hS f env env' _ (fun y hy => h y (by rw [reads]; exact List.mem_append_left _ hy))]

theorem evals_congr {S : Sem} {rf : Nat → List Nat} (hS : Respects S rf) {env env' : Nat → Val} :
    ∀ es, (∀ y ∈ readsAll rf es, env y = env' y) → evals S env es = evals S env' es
  | [], _ => rfl
  | e :: es, h => by
      rw [evals, evals, eval_congr hS e (fun y hy => h y (by rw [readsAll]; exact List.mem_append_left _ hy)),
        evals_congr hS es (fun y hy => h y (by rw [readsAll]; exact List.mem_append_right _ hy))]
end

mutual
/-- A C constant has the same value whatever the variables hold. -/
theorem const_eval (S : Sem) (env env' : Nat → Val) : ∀ e, cConst e = true → eval S env e = eval S env' e
  | .lit _, _ => rfl
  | .func _, _ => rfl
  | .var _, h => by simp [cConst] at h
  | .member _ _, h => by simp [cConst] at h
  | .tuple es, h => by rw [eval, eval, consts_eval S env env' es h]
  | .strct es, h => by rw [eval, eval, consts_eval S env env' es h]
  | .fieldExpr e, h => by rw [eval, eval, const_eval S env env' e h]
  | .fieldDecl e, h => by rw [eval, eval, const_eval S env env' e h]
  | .array es, h => by rw [eval, eval, consts_eval S env env' es h]
  | .cast e, h => by rw [eval, eval, const_eval S env env' e h]
  | .group e, h => by rw [eval, eval, const_eval S env env' e h]
  | .unary _ e, h => by rw [eval, eval, const_eval S env env' e h]
  | .binary _ a b, h => by
      simp only [cConst, Bool.and_eq_true] at h
      rw [eval, eval, const_eval S env env' a h.1, const_eval S env env' b h.2]
  | .call _ _, h => by simp [cConst] at h

theorem consts_eval (S : Sem) (env env' : Nat → Val) : ∀ es, cConsts es = true → evals S env es = evals S env' es
  | [], _ => rfl
  | e :: es, h => by
      simp only [cConsts, Bool.and_eq_true] at h
      rw [evals, evals, const_eval S env env' e h.1, consts_eval S env env' es h.2]
end

mutual
/-- **C221**: outside struct expressions and members, what counts as static is a C constant. -/
theorem static_is_constant : ∀ e, plain e = true → isStatic e = true → cConst e = true
  | .lit _, _, _ => rfl
  | .func _, _, _ => rfl
  | .var _, _, h => by simp [isStatic] at h
  | .member _ _, h, _ => by simp [plain] at h
  | .tuple es, hp, h => by
      simp only [plain, isStatic, cConst] at *; exact statics_are_constant es hp h
  | .strct _, h, _ => by simp [plain] at h
  | .fieldExpr _, _, h => by simp [isStatic] at h
  | .fieldDecl _, _, h => by simp [isStatic] at h
  | .array es, hp, h => by
      simp only [plain, isStatic, cConst] at *; exact statics_are_constant es hp h
  | .cast e, hp, h => by
      simp only [plain, isStatic, cConst] at *; exact static_is_constant e hp h
  | .group e, hp, h => by
      simp only [plain, isStatic, cConst] at *; exact static_is_constant e hp h
  | .unary _ e, hp, h => by
      simp only [plain, isStatic, cConst] at *; exact static_is_constant e hp h
  | .binary _ _ _, _, h => by simp [isStatic] at h
  | .call _ _, _, h => by simp [isStatic] at h

theorem statics_are_constant : ∀ es, plains es = true → allStatic es = true → cConsts es = true
  | [], _, _ => rfl
  | e :: es, hp, h => by
      simp only [plains, allStatic, cConsts, Bool.and_eq_true] at *
      exact ⟨static_is_constant e hp.1 h.1, statics_are_constant es hp.2 h.2⟩
end

/-! ## One list instead of a list of modules -/

theorem placeAll_append : ∀ (a b : List Decl), placeAll (a ++ b) =
    (match placeAll a, placeAll b with
      | some p, some q => some (p ++ q)
      | _, _ => none)
  | [], b => by cases h : placeAll b <;> simp [placeAll, h]
  | d :: a, b => by
    simp only [List.cons_append, placeAll]
    rw [placeAll_append a b]
    cases place d <;> cases placeAll a <;> cases placeAll b <;> rfl

theorem placeProgram_flatten : ∀ (ms : List (List Decl)),
    (placeProgram ms).map List.flatten = placeAll ms.flatten
  | [] => rfl
  | m :: ms => by
    simp only [placeProgram, List.flatten_cons]
    rw [placeAll_append, ← placeProgram_flatten ms]
    cases placeAll m <;> cases placeProgram ms <;> rfl

theorem cImage_append (S : Sem) : ∀ (a b : List Placed) (env : Nat → Val), cImage S env (a ++ b) =
    (match cImage S env a with
      | some env' => cImage S env' b
      | none => none)
  | [], _, _ => rfl
  | .inPlace x e :: a, b, env => by
    simp only [List.cons_append, cImage]
    by_cases h : cConst e = true
    · rw [if_pos h, if_pos h, cImage_append S a b]
    · rw [if_neg h, if_neg h]
  | .assigned x e :: a, b, env => by
    simp only [List.cons_append, cImage]
    rw [cImage_append S a b]

theorem imageProgram_flatten (S : Sem) : ∀ (ms : List (List Placed)) (env : Nat → Val),
    imageProgram S env ms = cImage S env ms.flatten
  | [], _ => rfl
  | m :: ms, env => by
    simp only [imageProgram, List.flatten_cons]
    rw [cImage_append]
    cases h : cImage S env m with
    | none => rfl
    | some env' => exact imageProgram_flatten S ms env'

theorem construct_append (S : Sem) : ∀ (a b : List Placed) (env : Nat → Val),
    construct S env (a ++ b) = construct S (construct S env a) b
  | [], _, _ => rfl
  | .inPlace _ _ :: a, b, env => by simp only [List.cons_append, construct]; exact construct_append S a b env
  | .assigned _ _ :: a, b, env => by simp only [List.cons_append, construct]; exact construct_append S a b _

theorem constructProgram_flatten (S : Sem) : ∀ (ms : List (List Placed)) (env : Nat → Val),
    constructProgram S env ms = construct S env ms.flatten
  | [], _ => rfl
  | m :: ms, env => by
    simp only [constructProgram, List.flatten_cons]
    rw [construct_append]
    exact constructProgram_flatten S ms _

theorem start_flat (S : Sem) (prog : List (List Decl)) : start S prog =
    (match placeAll prog.flatten with
      | none => .crash
      | some ps =>
        match cImage S (fun _ => .num 0) ps with
        | none => .rejected
        | some env => .ok (construct S env ps)) := by
  unfold start
  have h := placeProgram_flatten prog
  cases hp : placeProgram prog with
  | none => rw [hp] at h; simp only [Option.map_none] at h; rw [← h]
  | some ms =>
    rw [hp] at h
    simp only [Option.map_some] at h
    rw [← h]
    simp only
    rw [imageProgram_flatten]
    cases cImage S (fun _ => Val.num 0) ms.flatten with
    | none => rfl
    | some env => simp only [constructProgram_flatten]

/-! ## The two phases -/

def pname : Placed → Nat
  | .inPlace x _ => x
  | .assigned x _ => x

/-- The variable is assigned by the constructor. -/
def late : List Placed → Nat → Prop
  | [], _ => False
  | .inPlace _ _ :: ps, y => late ps y
  | .assigned x _ :: ps, y => y = x ∨ late ps y

theorem late_name {y : Nat} : ∀ {ps : List Placed}, late ps y → y ∈ ps.map pname
  | .inPlace _ _ :: ps, h => List.mem_cons_of_mem _ (late_name (ps := ps) h)
  | .assigned x _ :: ps, h => by
    rcases h with h | h
    · subst h; simp [pname]
    · exact List.mem_cons_of_mem _ (late_name (ps := ps) h)

theorem construct_untouched (S : Sem) {y : Nat} : ∀ (ps : List Placed) (env : Nat → Val), ¬ late ps y →
    construct S env ps y = env y
  | [], _, _ => rfl
  | .inPlace _ _ :: ps, env, h => by rw [construct]; exact construct_untouched S ps env h
  | .assigned x e :: ps, env, h => by
    rw [construct, construct_untouched S ps _ (fun h' => h (Or.inr h'))]
    have : y ≠ x := fun h' => h (Or.inl h')
    simp [this]

theorem cImage_untouched (S : Sem) {y : Nat} : ∀ (ps : List Placed) (env env' : Nat → Val),
    (∀ e, Placed.inPlace y e ∉ ps) → cImage S env ps = some env' → env' y = env y
  | [], env, env', _, h => by cases h; rfl
  | .inPlace x e :: ps, env, env', hn, h => by
    simp only [cImage] at h
    by_cases hc : cConst e = true
    · rw [if_pos hc] at h
      rw [cImage_untouched S ps _ env' (fun e' he => hn e' (by simp [he])) h]
      have : y ≠ x := by
        intro hyx; subst hyx; exact hn e (by simp)
      simp [this]
    · rw [if_neg hc] at h; cases h
  | .assigned _ _ :: ps, env, env', hn, h => by
    simp only [cImage] at h
    exact cImage_untouched S ps _ env' (fun e' he => hn e' (by simp [he])) h

theorem late_mem {y : Nat} : ∀ {ps : List Placed}, late ps y → ∃ e, Placed.assigned y e ∈ ps
  | .inPlace _ _ :: ps, h => by
    obtain ⟨e, he⟩ := late_mem (ps := ps) h
    exact ⟨e, by simp [he]⟩
  | .assigned x e :: ps, h => by
    rcases h with h | h
    · subst h; exact ⟨e, by simp⟩
    · obtain ⟨e, he⟩ := late_mem (ps := ps) h
      exact ⟨e, by simp [he]⟩

theorem mem_late {y : Nat} {e : Expr} : ∀ {ps : List Placed}, Placed.assigned y e ∈ ps → late ps y
  | .inPlace _ _ :: ps, h => by
    simp at h; exact mem_late (ps := ps) h
  | .assigned x e' :: ps, h => by
    rcases List.mem_cons.1 h with h | h
    · injection h with h1 _; exact Or.inl h1
    · exact Or.inr (mem_late (ps := ps) h)

theorem late_append {y : Nat} : ∀ {a b : List Placed}, late (a ++ b) y ↔ late a y ∨ late b y
  | [], b => by simp [late]
  | .inPlace _ _ :: a, b => by simp only [List.cons_append, late]; exact late_append
  | .assigned _ _ :: a, b => by simp only [List.cons_append, late]; rw [late_append, or_assoc]

theorem eq_of_name {p q : Placed} : ∀ {ps : List Placed}, (ps.map pname).Nodup → p ∈ ps → q ∈ ps → pname p = pname q →
    p = q
  | r :: rs, hnd, hp, hq, hpq => by
    simp only [List.map_cons, List.nodup_cons] at hnd
    rcases List.mem_cons.1 hp with h | h <;> rcases List.mem_cons.1 hq with h' | h'
    · rw [h, h']
    · exact absurd (by rw [← h, hpq]; exact List.mem_map.2 ⟨q, h', rfl⟩) hnd.1
    · exact absurd (by rw [← h', ← hpq]; exact List.mem_map.2 ⟨p, h, rfl⟩) hnd.1
    · exact eq_of_name hnd.2 h h' hpq

theorem placeAll_names : ∀ {ds : List Decl} {ps : List Placed}, placeAll ds = some ps →
    ps.map pname = ds.map Decl.name
  | [], ps, h => by cases h; rfl
  | d :: ds, ps, h => by
    simp only [placeAll] at h
    cases hp : place d with
    | none => rw [hp] at h; cases h
    | some p =>
      cases hps : placeAll ds with
      | none => rw [hp, hps] at h; cases h
      | some ps' =>
        rw [hp, hps] at h
        simp only [Option.some.injEq] at h
        subst h
        have ih := placeAll_names hps
        have : pname p = d.name := by
          unfold place at hp
          cases hd : d.init with
          | none => rw [hd] at hp; cases hp
          | some e =>
            rw [hd] at hp
            simp only at hp
            split at hp <;> cases hp <;> rfl
        simp [ih, this]

theorem placeAll_assigned : ∀ {ds : List Decl} {ps : List Placed} {x : Nat} {e : Expr}, placeAll ds = some ps →
    (Placed.assigned x e ∈ ps ↔ (⟨x, some e⟩ : Decl) ∈ ds ∧ isStatic e = false)
  | [], ps, x, e, h => by cases h; simp
  | d :: ds, ps, x, e, h => by
    simp only [placeAll] at h
    cases hp : place d with
    | none => rw [hp] at h; cases h
    | some p =>
      cases hps : placeAll ds with
      | none => rw [hp, hps] at h; cases h
      | some ps' =>
        rw [hp, hps] at h
        simp only [Option.some.injEq] at h
        subst h
        have ih := placeAll_assigned (x := x) (e := e) hps
        have hpd : p = .assigned x e ↔ d = ⟨x, some e⟩ ∧ isStatic e = false := by
          unfold place at hp
          obtain ⟨nm, ini⟩ := d
          cases ini with
          | none => cases hp
          | some e' =>
            simp only at hp
            by_cases hs : isStatic e' = true
            · rw [if_pos hs] at hp; cases hp
              constructor
              · intro h; cases h
              · rintro ⟨h, h2⟩; injection h with _ h; injection h with h; subst h; rw [hs] at h2; cases h2
            · rw [if_neg hs] at hp; cases hp
              constructor
              · intro h; cases h; exact ⟨rfl, by simpa using hs⟩
              · rintro ⟨h, _⟩; injection h with h1 h; injection h with h; subst h; subst h1; rfl
        constructor
        · intro h
          rcases List.mem_cons.1 h with h | h
          · have := hpd.1 h.symm; exact ⟨by simp [this.1], this.2⟩
          · have := ih.1 h; exact ⟨by simp [this.1], this.2⟩
        · rintro ⟨h, hs⟩
          rcases List.mem_cons.1 h with h | h
          · rw [← hpd.2 ⟨h.symm, hs⟩]; simp
          · exact List.mem_cons_of_mem _ (ih.2 ⟨h, hs⟩)

theorem late_setByCode {ds : List Decl} {ps : List Placed} (h : placeAll ds = some ps) {y : Nat} :
    late ps y ↔ ∃ d ∈ ds, d.name = y ∧ SetByCode d := by
  constructor
  · intro hl
    obtain ⟨e, he⟩ := late_mem hl
    obtain ⟨hd, hs⟩ := (placeAll_assigned h).1 he
    exact ⟨_, hd, rfl, e, rfl, hs⟩
  · rintro ⟨⟨nm, ini⟩, hd, hn, e, hi, hs⟩
    simp only at hn hi
    subst hn; subst hi
    exact mem_late ((placeAll_assigned h).2 ⟨hd, hs⟩)

theorem cImage_value (S : Sem) {x : Nat} {e : Expr} : ∀ (ps : List Placed) (env env' : Nat → Val),
    (ps.map pname).Nodup → Placed.inPlace x e ∈ ps → cImage S env ps = some env' →
    cConst e = true ∧ env' x = eval S (fun _ => .num 0) e
  | .inPlace y f :: ps, env, env', hnd, hm, h => by
    simp only [cImage] at h
    simp only [List.map_cons, List.nodup_cons, pname] at hnd
    by_cases hc : cConst f = true
    · rw [if_pos hc] at h
      rcases List.mem_cons.1 hm with hm | hm
      · cases hm
        refine ⟨hc, ?_⟩
        rw [cImage_untouched S ps _ env' ?_ h]
        · simp
        · intro e' he
          exact hnd.1 (List.mem_map.2 ⟨_, he, rfl⟩)
      · exact cImage_value S ps _ env' hnd.2 hm h
    · rw [if_neg hc] at h; cases h
  | .assigned _ _ :: ps, env, env', hnd, hm, h => by
    simp only [cImage] at h
    simp only [List.map_cons, List.nodup_cons] at hnd
    rcases List.mem_cons.1 hm with hm | hm
    · cases hm
    · exact cImage_value S ps _ env' hnd.2 hm h

/-! ## C220 -/

/-- **C220**: the value every variable has when `main` starts. A variable with a static initialiser has the value of the
initialiser. A variable set by code has the value its initialiser gives when the variables set by code that come after it
(and the variable itself) are still zero and all the others have their final values. -/
theorem start_exact (S : Sem) (prog : List (List Decl)) (env : Nat → Val) (h : start S prog = .ok env)
    (hnd : (prog.flatten.map Decl.name).Nodup) (pre post : List Decl) (x : Nat) (e : Expr)
    (hs : prog.flatten = pre ++ ⟨x, some e⟩ :: post) :
    (isStatic e = true → env x = eval S env e) ∧
    (isStatic e = false → ∃ before : Nat → Val,
      (∀ y, (∃ d ∈ (⟨x, some e⟩ :: post : List Decl), d.name = y ∧ SetByCode d) → before y = .num 0) ∧
      (∀ y, (¬ ∃ d ∈ (⟨x, some e⟩ :: post : List Decl), d.name = y ∧ SetByCode d) → before y = env y) ∧
      env x = eval S before e) := by
  rw [start_flat, hs] at h
  cases hps : placeAll (pre ++ ⟨x, some e⟩ :: post) with
  | none => rw [hps] at h; cases h
  | some ps =>
    rw [hps] at h
    simp only at h
    cases him : cImage S (fun _ => .num 0) ps with
    | none => rw [him] at h; cases h
    | some env0 =>
      rw [him] at h
      simp only [R.ok.injEq] at h
      have hnames := placeAll_names hps
      rw [← hs] at hnames
      have hndp : (ps.map pname).Nodup := by rw [hnames]; exact hnd
      -- the parts before and after the declaration
      rw [placeAll_append] at hps
      cases hpre : placeAll pre with
      | none => rw [hpre] at hps; cases hps
      | some ppre =>
        rw [hpre] at hps
        cases hrest : placeAll (⟨x, some e⟩ :: post) with
        | none => rw [hrest] at hps; cases hps
        | some prest =>
          rw [hrest] at hps
          simp only [Option.some.injEq] at hps
          subst hps
          have hlate := fun y => late_setByCode hrest (y := y)
          have hrest' := hrest
          simp only [placeAll, place] at hrest'
          cases hpost : placeAll post with
          | none => rw [hpost] at hrest'; split at hrest' <;> simp_all
          | some ppost =>
            rw [hpost] at hrest'
            constructor
            · intro hst
              rw [if_pos hst] at hrest'
              simp only [Option.some.injEq] at hrest'
              subst hrest'
              have hin : Placed.inPlace x e ∈ ppre ++ .inPlace x e :: ppost := by simp
              obtain ⟨hc, hv⟩ := cImage_value S _ _ env0 hndp hin him
              rw [← h, construct_untouched S _ env0]
              · rw [hv]; exact const_eval S _ _ e hc
              · intro hl
                obtain ⟨e', he'⟩ := late_mem hl
                have := eq_of_name hndp hin he' rfl
                cases this
            · intro hst
              rw [if_neg (by simp [hst])] at hrest'
              simp only [Option.some.injEq] at hrest'
              subst hrest'
              refine ⟨construct S env0 ppre, ?_, ?_, ?_⟩
              · intro y hy
                have hl := (hlate y).2 hy
                obtain ⟨e', he'⟩ := late_mem hl
                have hnp : ¬ late ppre y := by
                  intro hp
                  have h1 := late_name hp
                  have h2 := late_name hl
                  rw [List.map_append, List.nodup_append] at hndp
                  exact hndp.2.2 y h1 y h2 rfl
                rw [construct_untouched S ppre env0 hnp]
                refine cImage_untouched S _ _ env0 ?_ him
                intro e'' he''
                have := eq_of_name hndp he'' (List.mem_append_right _ he') rfl
                cases this
              · intro y hy
                have hl : ¬ late (.assigned x e :: ppost) y := fun hl => hy ((hlate y).1 hl)
                rw [← h, construct_append, construct_untouched S _ _ hl]
              · rw [← h, construct_append, construct]
                rw [construct_untouched S ppost]
                · simp
                · intro hl
                  have h2 := late_name hl
                  rw [List.map_append, List.nodup_append] at hndp
                  simp only [List.map_cons, List.nodup_cons, pname] at hndp
                  exact hndp.2.1.1 h2

/-- **C220**: when no initialiser reads, itself or through the functions it calls, a variable that is set by code later,
every variable holds what its initialiser gives in the running program. -/
theorem values_hold (S : Sem) (rf : Nat → List Nat) (hS : Respects S rf) (prog : List (List Decl)) (env : Nat → Val)
    (h : start S prog = .ok env) (hnd : (prog.flatten.map Decl.name).Nodup)
    (hord : ∀ pre x e post, prog.flatten = pre ++ ⟨x, some e⟩ :: post → isStatic e = false →
      ∀ y ∈ reads rf e, ¬ ∃ d ∈ (⟨x, some e⟩ :: post : List Decl), d.name = y ∧ SetByCode d) :
    ∀ x e, (⟨x, some e⟩ : Decl) ∈ prog.flatten → env x = eval S env e := by
  intro x e hm
  obtain ⟨pre, post, hs⟩ := List.append_of_mem hm
  have hex := start_exact S prog env h hnd pre post x e hs
  cases hst : isStatic e with
  | true => exact hex.1 hst
  | false =>
    obtain ⟨before, _, h2, h3⟩ := hex.2 hst
    rw [h3]
    exact eval_congr hS e (fun y hy => h2 y (hord pre x e post hs hst y hy))

/-- **C220**: a variable set by a call of a function that returns another variable, which is set by code further down,
starts as zero, whatever the other variable is set to. -/
theorem reads_later_as_zero (S : Sem) (prog : List (List Decl)) (env : Nat → Val) (h : start S prog = .ok env)
    (hnd : (prog.flatten.map Decl.name).Nodup) (pre post : List Decl) (x y f : Nat) (args : List Expr)
    (hs : prog.flatten = pre ++ ⟨x, some (.call f args)⟩ :: post) (hf : ∀ env vs, S.fn f env vs = env y)
    (hy : ∃ d ∈ post, d.name = y ∧ SetByCode d) : env x = .num 0 := by
  obtain ⟨before, h1, _, h3⟩ := (start_exact S prog env h hnd pre post x _ hs).2 (by simp [isStatic])
  rw [h3, eval, hf]
  obtain ⟨d, hd, hn⟩ := hy
  exact h1 y ⟨d, by simp [hd], hn⟩

/-! ## C221 -/

/-- A struct expression counts as static whatever its fields are. -/
theorem struct_is_static : ∀ (fs : List Expr), (∀ f ∈ fs, ∃ e, f = .fieldExpr e) → fieldsStatic fs = true
  | [], _ => rfl
  | f :: fs, h => by
    obtain ⟨e, he⟩ := h f (by simp)
    subst he
    simp only [fieldsStatic]
    exact struct_is_static fs (fun g hg => h g (by simp [hg]))

theorem placeAll_none {ds : List Decl} : placeAll ds = none ↔ ∃ d ∈ ds, d.init = none := by
  induction ds with
  | nil => simp [placeAll]
  | cons d ds ih =>
    have hd : place d = none ↔ d.init = none := by
      unfold place
      cases d.init with
      | none => simp
      | some e => by_cases hs : isStatic e = true <;> simp [hs]
    simp only [placeAll]
    constructor
    · intro h
      cases hp : place d with
      | none => exact ⟨d, by simp, hd.1 hp⟩
      | some p =>
        cases hps : placeAll ds with
        | none => obtain ⟨d', h1, h2⟩ := ih.1 hps; exact ⟨d', by simp [h1], h2⟩
        | some ps => rw [hp, hps] at h; cases h
    · rintro ⟨d', h1, h2⟩
      rcases List.mem_cons.1 h1 with h1 | h1
      · subst h1; rw [hd.2 h2]
      · rw [ih.2 ⟨d', h1, h2⟩]; cases place d <;> rfl

theorem placeAll_inPlace : ∀ {ds : List Decl} {ps : List Placed} {x : Nat} {e : Expr}, placeAll ds = some ps →
    (Placed.inPlace x e ∈ ps ↔ (⟨x, some e⟩ : Decl) ∈ ds ∧ isStatic e = true)
  | [], ps, x, e, h => by cases h; simp
  | d :: ds, ps, x, e, h => by
    simp only [placeAll] at h
    cases hp : place d with
    | none => rw [hp] at h; cases h
    | some p =>
      cases hps : placeAll ds with
      | none => rw [hp, hps] at h; cases h
      | some ps' =>
        rw [hp, hps] at h
        simp only [Option.some.injEq] at h
        subst h
        have ih := placeAll_inPlace (x := x) (e := e) hps
        have hpd : p = .inPlace x e ↔ d = ⟨x, some e⟩ ∧ isStatic e = true := by
          unfold place at hp
          obtain ⟨nm, ini⟩ := d
          cases ini with
          | none => cases hp
          | some e' =>
            simp only at hp
            by_cases hs : isStatic e' = true
            · rw [if_pos hs] at hp; cases hp
              constructor
              · intro h; cases h; exact ⟨rfl, hs⟩
              · rintro ⟨h, _⟩; injection h with h1 h; injection h with h; subst h; subst h1; rfl
            · rw [if_neg hs] at hp; cases hp
              constructor
              · intro h; cases h
              · rintro ⟨h, h2⟩; injection h with _ h; injection h with h; subst h; exact absurd h2 hs
        constructor
        · intro h
          rcases List.mem_cons.1 h with h | h
          · have := hpd.1 h.symm; exact ⟨by simp [this.1], this.2⟩
          · have := ih.1 h; exact ⟨by simp [this.1], this.2⟩
        · rintro ⟨h, hs⟩
          rcases List.mem_cons.1 h with h | h
          · rw [← hpd.2 ⟨h.symm, hs⟩]; simp
          · exact List.mem_cons_of_mem _ (ih.2 ⟨h, hs⟩)

theorem cImage_none (S : Sem) : ∀ (ps : List Placed) (env : Nat → Val),
    cImage S env ps = none ↔ ∃ x e, Placed.inPlace x e ∈ ps ∧ cConst e = false
  | [], _ => by simp [cImage]
  | .inPlace x e :: ps, env => by
    simp only [cImage]
    by_cases hc : cConst e = true
    · rw [if_pos hc, cImage_none S ps]
      constructor
      · rintro ⟨y, f, h1, h2⟩; exact ⟨y, f, by simp [h1], h2⟩
      · rintro ⟨y, f, h1, h2⟩
        rcases List.mem_cons.1 h1 with h1 | h1
        · cases h1; rw [hc] at h2; cases h2
        · exact ⟨y, f, h1, h2⟩
    · rw [if_neg hc]
      simp only [true_iff]
      exact ⟨x, e, by simp, by simpa using hc⟩
  | .assigned x e :: ps, env => by
    simp only [cImage]
    rw [cImage_none S ps]
    constructor
    · rintro ⟨y, f, h1, h2⟩; exact ⟨y, f, by simp [h1], h2⟩
    · rintro ⟨y, f, h1, h2⟩
      rcases List.mem_cons.1 h1 with h1 | h1
      · cases h1
      · exact ⟨y, f, h1, h2⟩

/-- **C221**: the compiler crashes exactly on programs with a module-level variable that has no initialiser. -/
theorem crash_iff (S : Sem) (prog : List (List Decl)) :
    start S prog = .crash ↔ ∃ m ∈ prog, ∃ d ∈ m, d.init = none := by
  rw [start_flat]
  have hmem : (∃ m ∈ prog, ∃ d ∈ m, d.init = none) ↔ ∃ d ∈ prog.flatten, d.init = none := by
    simp only [List.mem_flatten]
    constructor
    · rintro ⟨m, hm, d, hd, h⟩; exact ⟨d, ⟨m, hm, hd⟩, h⟩
    · rintro ⟨d, ⟨m, hm, hd⟩, h⟩; exact ⟨m, hm, d, hd, h⟩
  rw [hmem, ← placeAll_none]
  cases placeAll prog.flatten with
  | none => simp
  | some ps =>
    simp only
    cases cImage S (fun _ => Val.num 0) ps <;> simp

/-- **C221**: the C compiler rejects the output exactly when an initialiser counts as static and is not a constant. -/
theorem rejected_iff (S : Sem) (prog : List (List Decl)) (hi : ∀ m ∈ prog, ∀ d ∈ m, d.init ≠ none) :
    start S prog = .rejected ↔
      ∃ m ∈ prog, ∃ d ∈ m, ∃ e, d.init = some e ∧ isStatic e = true ∧ cConst e = false := by
  rw [start_flat]
  have hmem : (∃ m ∈ prog, ∃ d ∈ m, ∃ e, d.init = some e ∧ isStatic e = true ∧ cConst e = false) ↔
      ∃ x e, (⟨x, some e⟩ : Decl) ∈ prog.flatten ∧ isStatic e = true ∧ cConst e = false := by
    simp only [List.mem_flatten]
    constructor
    · rintro ⟨m, hm, ⟨x, ini⟩, hd, e, h, h2⟩; simp only at h; subst h; exact ⟨x, e, ⟨m, hm, hd⟩, h2⟩
    · rintro ⟨x, e, ⟨m, hm, hd⟩, h⟩; exact ⟨m, hm, _, hd, e, rfl, h⟩
  rw [hmem]
  cases hp : placeAll prog.flatten with
  | none =>
    exfalso
    obtain ⟨d, hd, h⟩ := placeAll_none.1 hp
    obtain ⟨m, hm, hd⟩ := List.mem_flatten.1 hd
    exact hi m hm d hd h
  | some ps =>
    simp only
    have key : cImage S (fun _ => Val.num 0) ps = none ↔
        ∃ x e, (⟨x, some e⟩ : Decl) ∈ prog.flatten ∧ isStatic e = true ∧ cConst e = false := by
      rw [cImage_none]
      constructor
      · rintro ⟨x, e, h1, h2⟩
        have := (placeAll_inPlace hp).1 h1
        exact ⟨x, e, this.1, this.2, h2⟩
      · rintro ⟨x, e, h1, h2, h3⟩
        exact ⟨x, e, (placeAll_inPlace hp).2 ⟨h1, h2⟩, h3⟩
    rw [← key]
    cases cImage S (fun _ => Val.num 0) ps <;> simp

theorem cConsts_false {fs : List Expr} {e : Expr} (h : Expr.fieldExpr e ∈ fs) (hc : cConst e = false) :
    cConsts fs = false := by
  induction fs with
  | nil => simp at h
  | cons f fs ih =>
    rw [cConsts]
    rcases List.mem_cons.1 h with h | h
    · subst h; simp [cConst, hc]
    · rw [ih h]; simp

/-- **C221**: a variable initialised with a struct expression, one field of which reads a variable, calls a function or is
otherwise no C constant, makes the output unacceptable to the C compiler. -/
theorem struct_field_rejected (S : Sem) (prog : List (List Decl)) (hi : ∀ m ∈ prog, ∀ d ∈ m, d.init ≠ none)
    (m : List Decl) (hm : m ∈ prog) (x : Nat) (fs : List Expr) (hd : (⟨x, some (.strct fs)⟩ : Decl) ∈ m)
    (hf : ∀ f ∈ fs, ∃ e, f = .fieldExpr e) (e : Expr) (he : Expr.fieldExpr e ∈ fs) (hc : cConst e = false) :
    start S prog = .rejected := by
  rw [rejected_iff S prog hi]
  refine ⟨m, hm, _, hd, _, rfl, ?_, ?_⟩
  · rw [isStatic]; exact struct_is_static fs hf
  · rw [cConst]; exact cConsts_false he hc

/-- **C221**: a program whose variables all have initialisers without struct expressions and members is accepted. -/
theorem plain_accepted (S : Sem) (prog : List (List Decl)) (hi : ∀ m ∈ prog, ∀ d ∈ m, ∃ e, d.init = some e ∧ plain e = true) :
    ∃ env, start S prog = .ok env := by
  cases h : start S prog with
  | ok env => exact ⟨env, rfl⟩
  | crash =>
    obtain ⟨m, hm, d, hd, hn⟩ := (crash_iff S prog).1 h
    obtain ⟨e, he, _⟩ := hi m hm d hd
    rw [hn] at he; cases he
  | rejected =>
    have hne : ∀ m ∈ prog, ∀ d ∈ m, d.init ≠ none := by
      intro m hm d hd hn
      obtain ⟨e, he, _⟩ := hi m hm d hd
      rw [hn] at he; cases he
    obtain ⟨m, hm, d, hd, e, he, hs, hc⟩ := (rejected_iff S prog hne).1 h
    obtain ⟨e', he', hp⟩ := hi m hm d hd
    rw [he] at he'
    injection he' with he'
    subst he'
    rw [static_is_constant e hp hs] at hc; cases hc

/-! ## Cases -/

/-- Operators that add, and a function 7 that returns variable 2. -/
def S0 : Sem where
  una := fun _ v => v
  bin := fun _ a b => match a, b with
    | .num x, .num y => .num (x + y)
    | _, _ => .num 0
  conv := id
  mem := fun v _ => v
  fn := fun f env _ => if f = 7 then env 2 else .num 5

/-- `var v0 = 3; var v1 = v0 + 4`, then a module with `var v2 = v1 + v0`. -/
def good : List (List Decl) :=
  [[⟨0, some (.lit 3)⟩, ⟨1, some (.binary 0 (.var 0) (.lit 4))⟩], [⟨2, some (.binary 0 (.var 1) (.var 0))⟩]]

example : ∃ env, start S0 good = .ok env ∧ env 0 = .num 3 ∧ env 1 = .num 7 ∧ env 2 = .num 10 := by
  refine ⟨_, rfl, ?_, ?_, ?_⟩ <;> rfl

/-- `var v1 = f(); var v2 = g(); func f() => v2`: `v1` is zero although `f()` gives 5 once the program runs. -/
example : ∃ env, start S0 [[⟨1, some (.call 7 [])⟩, ⟨2, some (.call 8 [])⟩]] = .ok env ∧
    env 1 = .num 0 ∧ env 2 = .num 5 := by
  refine ⟨_, rfl, ?_, ?_⟩ <;> rfl

/-- `var v1 = P{x: 1, y: f()}` -/
example : start S0 [[⟨1, some (.strct [.fieldExpr (.lit 1), .fieldExpr (.call 8 [])])⟩]] = .rejected :=
  struct_field_rejected S0 _ (by simp) _ (List.mem_singleton.2 rfl) 1 _ (List.mem_singleton.2 rfl)
    (by intro f hf; simp at hf; rcases hf with h | h <;> subst h <;> exact ⟨_, rfl⟩) (.call 8 []) (by simp) rfl

end Verif.Startup
