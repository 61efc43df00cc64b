import Verif.Std.Http.Methods
import Verif.Std.Trie.Props
/-! # Requests reach the routes that match them (C108) -/
namespace Verif.Http

/-! ## Specification -/

/-- A declared route: a method that may be written before it (with the number of spaces after it), the fixed part of the
path, and the names of the parameters that follow. -/
structure Decl where
  method : Option (Method × Nat)
  fixed : List Nat
  names : List (List Nat)

/-- What stands before the path. -/
def Decl.lead (d : Decl) : List Nat :=
  match d.method with
  | some (m, spaces) => methodName m ++ List.replicate spaces 32
  | none => []

/-- The text of the declaration: `POST /a/b/{x}/{y}`. -/
def Decl.text (d : Decl) : List Nat := d.lead ++ d.fixed ++ d.names.flatMap fun n => 47 :: 123 :: (n ++ [125])

/-- A proper declaration: the fixed part starts with `/` and has no brace, names have no closing brace. -/
def Decl.Good (d : Decl) : Prop :=
  d.fixed.head? = some 47 ∧ 123 ∉ d.fixed ∧ (∀ n ∈ d.names, 125 ∉ n) ∧ ∀ m k, d.method = some (m, k) → m ≠ .unknown

/-- The method of a declaration; `GET` if there is none. -/
def Decl.verb (d : Decl) : Method :=
  match d.method with
  | some (m, _) => m
  | none => .get

/-- The request matches the declaration: its path is the fixed part, then one non-empty or empty segment for every
parameter, then the end or a query. -/
def Decl.Matches (d : Decl) (m : Method) (path : List Nat) (binds : List (List Nat × List Nat)) : Prop :=
  m = d.verb ∧ ∃ values query, path = d.fixed ++ values.flatMap (47 :: ·) ++ query ∧
    (query = [] ∨ query.head? = some 63) ∧ (∀ v ∈ values, 47 ∉ v ∧ 63 ∉ v) ∧ values.length = d.names.length ∧
    binds = d.names.zip values

/-! ## Values of parameters -/

theorem takeWhile_stop (p : Nat → Bool) : ∀ (v r : List Nat), (∀ c ∈ v, p c = true) → (∀ c, r.head? = some c → p c = false) →
    (v ++ r).takeWhile p = v ∧ (v ++ r).dropWhile p = r
  | [], [], _, _ => ⟨rfl, rfl⟩
  | [], c :: r, _, h => by
    have := h c rfl
    simp [this]
  | c :: v, r, hv, h => by
    have hc := hv c (by simp)
    have ih := takeWhile_stop p v r (fun d hd => hv d (by simp [hd])) h
    simp [hc, ih.1, ih.2]

theorem args_read : ∀ (names values : List (List Nat)) (query : List Nat), values.length = names.length →
    (∀ v ∈ values, 47 ∉ v ∧ 63 ∉ v) → (query = [] ∨ query.head? = some 63) →
    parseRouteArgs names (values.flatMap (47 :: ·) ++ query) = some (names.zip values)
  | [], [], query, _, _, hq => by
    rcases hq with rfl | hq
    · rfl
    · cases query with
      | nil => cases hq
      | cons c cs => simp at hq; subst hq; rfl
  | n :: names, v :: values, query, hl, hv, hq => by
    have hv0 := hv v (by simp)
    have ih := args_read names values query (by simpa using hl) (fun w hw => hv w (by simp [hw])) hq
    have hs := takeWhile_stop (fun c => c ≠ 47 && c ≠ 63) v (values.flatMap (47 :: ·) ++ query)
      (by
        intro c hc
        have h1 : c ≠ 47 := fun e => hv0.1 (e ▸ hc)
        have h2 : c ≠ 63 := fun e => hv0.2 (e ▸ hc)
        simp [h1, h2])
      (by
        intro c hc
        cases values with
        | nil =>
          rcases hq with rfl | hq
          · simp at hc
          · simp only [List.flatMap_nil, List.nil_append] at hc
            rw [hq] at hc
            cases hc; rfl
        | cons w ws => simp at hc; subst hc; rfl)
    rw [List.flatMap_cons, List.append_assoc, List.cons_append, parseRouteArgs, hs.1, hs.2, ih]
    rfl

theorem args_only : ∀ (names : List (List Nat)) (p : List Nat) (binds : List (List Nat × List Nat)), parseRouteArgs names p = some binds →
    ∃ values query, p = values.flatMap (47 :: ·) ++ query ∧ (query = [] ∨ query.head? = some 63) ∧
      (∀ v ∈ values, 47 ∉ v ∧ 63 ∉ v) ∧ values.length = names.length ∧ binds = names.zip values
  | [], [], binds, h => by
    simp only [parseRouteArgs, Option.some.injEq] at h
    exact ⟨[], [], rfl, Or.inl rfl, by simp, rfl, h.symm⟩
  | [], c :: p, binds, h => by
    simp only [parseRouteArgs] at h
    split at h
    · next hc =>
      cases h
      exact ⟨[], c :: p, rfl, Or.inr (by simp [hc]), by simp, rfl, rfl⟩
    · cases h
  | n :: names, p, binds, h => by
    match p, h with
    | [], h => simp [parseRouteArgs] at h
    | c :: r, h =>
      by_cases hc : c = 47
      · subst hc
        rw [parseRouteArgs] at h
        cases e : parseRouteArgs names (r.dropWhile fun c => c ≠ 47 && c ≠ 63) with
        | none => rw [e] at h; cases h
        | some bs =>
          rw [e] at h
          cases h
          obtain ⟨values, query, h1, h2, h3, h4, h5⟩ := args_only names _ bs e
          refine ⟨r.takeWhile (fun c => c ≠ 47 && c ≠ 63) :: values, query, ?_, h2, ?_, by simp [h4], by simp [h5]⟩
          · rw [List.flatMap_cons, List.append_assoc, ← h1, List.cons_append, List.takeWhile_append_dropWhile]
          · intro v hv
            rcases List.mem_cons.1 hv with rfl | hv
            · have hm : ∀ c ∈ r.takeWhile (fun c => c ≠ 47 && c ≠ 63), c ≠ 47 ∧ c ≠ 63 := by
                intro c hc
                have := List.all_eq_true.1 (List.all_takeWhile (p := fun c : Nat => c ≠ 47 && c ≠ 63) (l := r)) c hc
                simpa using this
              exact ⟨fun h => (hm _ h).1 rfl, fun h => (hm _ h).2 rfl⟩
            · exact h3 v hv
      · exfalso
        unfold parseRouteArgs at h
        split at h
        · next heq => cases heq; exact hc rfl
        · cases h

/-! ## Declarations -/

theorem params_read : ∀ (names : List (List Nat)) (n : Nat), names.length < n → (∀ m ∈ names, 125 ∉ m) →
    parseParams n (names.flatMap fun n => 47 :: 123 :: (n ++ [125])) = .ok names
  | [], n + 1, _, _ => rfl
  | m :: names, n + 1, hl, h => by
    have ih := params_read names n (by simpa using hl) (fun k hk => h k (by simp [hk]))
    have hm := h m (by simp)
    have hs := takeWhile_stop (· ≠ 125) m (125 :: names.flatMap fun n => 47 :: 123 :: (n ++ [125]))
      (by intro c hc; have : c ≠ 125 := fun e => hm (e ▸ hc); simpa using this) (by intro c hc; cases hc; rfl)
    simp only [List.flatMap_cons, List.cons_append, List.append_assoc, List.nil_append]
    rw [parseParams]
    simp only [hs.1, hs.2, ih, Out.bind_ok]

theorem flatMap_length (names : List (List Nat)) : names.length ≤ (names.flatMap fun n => 47 :: 123 :: (n ++ [125])).length := by
  induction names with
  | nil => simp
  | cons n ns ih => simp only [List.flatMap_cons, List.length_append, List.length_cons] at ih ⊢; omega

/-- Where the parameters begin in the text of a declaration. -/
theorem prefixEnd_text (d : Decl) (h : d.Good) (idx : Nat) (hidx : idx = d.lead.length) : prefixEnd d.text idx = (d.lead ++ d.fixed).length := by
  have hdrop : d.text.drop idx = d.fixed ++ d.names.flatMap fun n => 47 :: 123 :: (n ++ [125]) := by
    rw [Decl.text, hidx, List.append_assoc, List.drop_left]
  unfold prefixEnd
  rw [hdrop]
  cases hn : d.names with
  | nil =>
    have hs := takeWhile_stop (· ≠ 123) d.fixed [] (by intro c hc; have : c ≠ 123 := fun e => h.2.1 (e ▸ hc); simpa using this) (by simp)
    simp only [List.flatMap_nil, hs.1]
    have hl : d.text.length = idx + d.fixed.length := by simp [Decl.text, hn, hidx]
    rw [if_neg, List.length_append, hidx]
    rw [List.getElem?_eq_none (by omega)]
    simp
  | cons n ns =>
    have e : d.fixed ++ (n :: ns).flatMap (fun n => 47 :: 123 :: (n ++ [125])) =
        (d.fixed ++ [47]) ++ 123 :: (n ++ [125] ++ ns.flatMap fun n => 47 :: 123 :: (n ++ [125])) := by simp
    have hs := takeWhile_stop (· ≠ 123) (d.fixed ++ [47]) (123 :: (n ++ [125] ++ ns.flatMap fun n => 47 :: 123 :: (n ++ [125])))
      (by
        intro c hc
        have : c ≠ 123 := by
          intro e
          subst e
          simp only [List.mem_append, List.mem_singleton] at hc
          rcases hc with hc | hc
          · exact h.2.1 hc
          · cases hc
        simpa using this) (by intro c hc; cases hc; rfl)
    simp only [e, hs.1]
    have ht : d.text = (d.lead ++ (d.fixed ++ [47])) ++ 123 :: (n ++ [125] ++ ns.flatMap fun n => 47 :: 123 :: (n ++ [125])) := by
      rw [List.append_assoc, ← e, Decl.text, hn, List.append_assoc]
    rw [if_pos]
    · simp only [List.length_append, List.length_cons, List.length_nil, hidx]; omega
    · have hl : idx + (d.fixed ++ [47]).length = (d.lead ++ (d.fixed ++ [47])).length := by simp [hidx]
      rw [hl, ht, List.getElem?_append_right (Nat.le_refl _)]
      simp

/-- A proper declaration is stored under its text up to the parameters. -/
theorem add_text (routes : Trie.Heap Route) (d : Decl) (h : d.Good) (n : Nat) :
    Router.add routes d.text n = match Trie.add routes (d.lead ++ d.fixed) ⟨n, d.names, 1 <<< d.verb.code, false⟩ with
      | some h => .ok h
      | none => .abort := by
  have hbase : ∀ methods, addRoute routes methods d.text d.lead.length n =
      match Trie.add routes (d.lead ++ d.fixed) ⟨n, d.names, methods, false⟩ with
      | some h => .ok h
      | none => .abort := by
    intro methods
    unfold addRoute
    have h0 : rd d.text d.lead.length = .ok 47 := by
      have : d.text[d.lead.length]? = some 47 := by
        rw [Decl.text, List.append_assoc, List.getElem?_append_right (Nat.le_refl _), Nat.sub_self]
        have := h.1
        cases hf : d.fixed with
        | nil => rw [hf] at this; cases this
        | cons c cs => rw [hf] at this; simpa using this
      rw [rd, this]
    rw [h0, Out.bind_ok, if_neg (by decide), prefixEnd_text d h _ rfl]
    have hd : d.text.drop (d.lead ++ d.fixed).length = d.names.flatMap fun n => 47 :: 123 :: (n ++ [125]) := by
      rw [Decl.text, List.drop_left]
    have ht : d.text.take (d.lead ++ d.fixed).length = d.lead ++ d.fixed := by rw [Decl.text, List.take_left]
    have hl : d.names.length < d.text.length + 1 := by
      have := flatMap_length d.names
      simp only [Decl.text, List.length_append]
      omega
    rw [hd, ht, params_read d.names _ hl h.2.2.1, Out.bind_ok]
    rfl
  unfold Router.add
  cases hm : d.method with
  | none =>
    have hlead : d.lead = [] := by simp [Decl.lead, hm]
    have hv : d.verb = .get := by simp [Decl.verb, hm]
    have h0 : rd d.text 0 = .ok 47 := by
      have := h.1
      cases hf : d.fixed with
      | nil => rw [hf] at this; cases this
      | cons c cs => rw [hf] at this; simp at this; subst this; simp [rd, Decl.text, hlead, hf]
    rw [h0, Out.bind_ok, if_neg (by decide), hv]
    have := hbase (1 <<< Method.get.code)
    rw [hlead] at this ⊢
    exact this
  | some mk =>
    obtain ⟨m, k⟩ := mk
    have hmne := h.2.2.2 m k hm
    have hlead : d.lead = methodName m ++ List.replicate k 32 := by simp [Decl.lead, hm]
    have hv : d.verb = m := by simp [Decl.verb, hm]
    have htext : d.text = methodName m ++ (List.replicate k 32 ++ (d.fixed ++ d.names.flatMap fun n => 47 :: 123 :: (n ++ [125]))) := by
      rw [Decl.text, hlead]; simp
    have h0 : ∃ c, rd d.text 0 = .ok c ∧ c ≠ 47 := by
      rw [htext]
      cases m with
      | unknown => exact absurd rfl hmne
      | delete => exact ⟨68, rfl, by decide⟩
      | get => exact ⟨71, rfl, by decide⟩
      | head => exact ⟨72, rfl, by decide⟩
      | post => exact ⟨80, rfl, by decide⟩
      | put => exact ⟨80, rfl, by decide⟩
      | connect => exact ⟨67, rfl, by decide⟩
      | options => exact ⟨79, rfl, by decide⟩
      | trace => exact ⟨84, rfl, by decide⟩
    obtain ⟨c, h0, hc⟩ := h0
    have hskip : skipSpaces d.text (methodName m).length = d.lead.length := by
      unfold skipSpaces
      rw [htext, List.drop_left]
      have hs := takeWhile_stop (· = 32) (List.replicate k 32) (d.fixed ++ d.names.flatMap fun n => 47 :: 123 :: (n ++ [125]))
        (by intro c hc; simp [List.mem_replicate] at hc; simp [hc.2])
        (by
          intro c hc
          have := h.1
          cases hf : d.fixed with
          | nil => rw [hf] at this; cases this
          | cons x xs =>
            rw [hf] at this hc
            simp at this hc
            subst hc; subst this; rfl)
      rw [hs.1, hlead, List.length_append]
    have hmeth : methodFromString d.text = .ok (m, (methodName m).length) := by
      rw [htext]; exact method_reads_back m hmne _
    rw [h0, Out.bind_ok, if_pos hc, hmeth, Out.bind_ok]
    simp only [if_neg hmne, hskip, hv]
    exact hbase _

/-- The routes of declarations from a position on, with the keys they are stored under. -/
def stored : Nat → List Decl → List (List Nat × Route)
  | _, [] => []
  | n, d :: ds => (d.lead ++ d.fixed, ⟨n, d.names, 1 <<< d.verb.code, false⟩) :: stored (n + 1) ds

theorem addAll_eq : ∀ (ds : List Decl) (routes : Trie.Heap Route) (n : Nat), (∀ d ∈ ds, d.Good) →
    Router.addAll routes n (ds.map Decl.text) = match Trie.addAll routes (stored n ds) with
      | some h => .ok h
      | none => .abort
  | [], _, _, _ => rfl
  | d :: ds, routes, n, h => by
    rw [List.map_cons, Router.addAll, add_text routes d (h d (by simp)) n, stored, Trie.addAll]
    cases Trie.add routes (d.lead ++ d.fixed) ⟨n, d.names, 1 <<< d.verb.code, false⟩ with
    | none => rfl
    | some h1 =>
      simp only [Out.bind_ok, Option.bind_some]
      exact addAll_eq ds h1 (n + 1) (fun e he => h e (by simp [he]))

theorem stored_keys : ∀ (ds : List Decl) (n : Nat), (stored n ds).map Prod.fst = ds.map fun d => d.lead ++ d.fixed
  | [], _ => rfl
  | d :: ds, n => by rw [stored, List.map_cons, List.map_cons, stored_keys ds]

theorem stored_lookup : ∀ (ds : List Decl) (n : Nat) (key : List Nat) (r : Route), Trie.lookup key (stored n ds) = some r →
    ∃ i d, ds[i]? = some d ∧ d.lead ++ d.fixed = key ∧ r = ⟨n + i, d.names, 1 <<< d.verb.code, false⟩
  | [], n, key, r, h => by simp [stored, Trie.lookup] at h
  | d :: ds, n, key, r, h => by
    by_cases hk : d.lead ++ d.fixed = key
    · simp [stored, Trie.lookup, hk] at h
      exact ⟨0, d, rfl, hk, h.symm⟩
    · have : Trie.lookup key (stored (n + 1) ds) = some r := by simpa [stored, Trie.lookup, hk] using h
      obtain ⟨i, e, h1, h2, h3⟩ := stored_lookup ds (n + 1) key r this
      exact ⟨i + 1, e, by simpa using h1, h2, by rw [h3]; congr 1; omega⟩

theorem lookup_stored : ∀ (ds : List Decl) (n i : Nat) (d : Decl), (ds.map fun d => d.lead ++ d.fixed).Nodup → ds[i]? = some d →
    Trie.lookup (d.lead ++ d.fixed) (stored n ds) = some ⟨n + i, d.names, 1 <<< d.verb.code, false⟩
  | [], n, i, d, _, h => by simp at h
  | e :: ds, n, 0, d, _, h => by
    simp at h; subst h
    simp [stored, Trie.lookup]
  | e :: ds, n, i + 1, d, hn, h => by
    simp only [List.map_cons, List.nodup_cons] at hn
    have h' : ds[i]? = some d := by simpa using h
    have hne : ¬ (e.lead ++ e.fixed = d.lead ++ d.fixed) := by
      intro he
      exact hn.1 (he ▸ List.mem_map.2 ⟨d, List.mem_of_getElem? h', rfl⟩)
    have := lookup_stored ds (n + 1) i d hn.2 h'
    rw [show n + (i + 1) = n + 1 + i by omega, ← this]
    simp [stored, Trie.lookup, hne]

/-! ## The search of the trie -/

theorem search_longest {α : Type} (h : Trie.Heap α) : ∀ (cs : List Nat) (n i : Nat) (found : Option (Nat × α)),
    (∃ k d, 1 ≤ k ∧ k ≤ cs.length ∧ (Trie.walk h n (cs.take k)).bind h.data = some d ∧
      (∀ k', k < k' → k' ≤ cs.length → (Trie.walk h n (cs.take k')).bind h.data = none) ∧ Trie.findLoop h n i found cs = some (i + k, d)) ∨
    ((∀ k, 1 ≤ k → k ≤ cs.length → (Trie.walk h n (cs.take k)).bind h.data = none) ∧ Trie.findLoop h n i found cs = found)
  | [], n, i, found => Or.inr ⟨fun k h1 h2 => by simp at h2; omega, rfl⟩
  | c :: cs, n, i, found => by
    cases e : h.child n c with
    | none =>
      right
      refine ⟨fun k h1 h2 => ?_, by rw [Trie.findLoop, e]⟩
      obtain ⟨k, rfl⟩ : ∃ j, k = j + 1 := ⟨k - 1, by omega⟩
      rw [List.take_succ_cons, Trie.walk, e]
      rfl
    | some m =>
      have hw : ∀ k, Trie.walk h n ((c :: cs).take (k + 1)) = Trie.walk h m (cs.take k) := by
        intro k
        rw [List.take_succ_cons, Trie.walk, e]
        rfl
      have hf : Trie.findLoop h n i found (c :: cs) =
          Trie.findLoop h m (i + 1) (match h.data m with | some d => some (i + 1, d) | none => found) cs := by
        rw [Trie.findLoop, e]
        rfl
      rcases search_longest h cs m (i + 1) (match h.data m with | some d => some (i + 1, d) | none => found) with
        ⟨k, d, h1, h2, h3, h4, h5⟩ | ⟨h1, h2⟩
      · left
        refine ⟨k + 1, d, by omega, by simpa using h2, by rw [hw]; exact h3, ?_, ?_⟩
        · intro k' hk hk'
          obtain ⟨k', rfl⟩ : ∃ j, k' = j + 1 := ⟨k' - 1, by omega⟩
          rw [hw]
          exact h4 k' (by omega) (by simpa using hk')
        · rw [hf, h5]; congr 2; omega
      · cases hd : h.data m with
        | some d =>
          left
          refine ⟨1, d, by omega, by simp, ?_, ?_, ?_⟩
          · rw [hw 0]; simpa [Trie.walk] using hd
          · intro k' hk hk'
            obtain ⟨k', rfl⟩ : ∃ j, k' = j + 1 := ⟨k' - 1, by omega⟩
            rw [hw]
            exact h1 k' (by omega) (by simpa using hk')
          · rw [hf, h2, hd]
        | none =>
          right
          refine ⟨?_, by rw [hf, h2, hd]⟩
          intro k hk hk'
          obtain ⟨k, rfl⟩ : ∃ j, k = j + 1 := ⟨k - 1, by omega⟩
          rw [hw]
          cases k with
          | zero => simpa [Trie.walk] using hd
          | succ k => exact h1 (k + 1) (by omega) (by simpa using hk')

theorem supports_iff (v m : Method) (n : Nat) (ps : List (List Nat)) : Route.supports ⟨n, ps, 1 <<< v.code, false⟩ m = true ↔ m = v := by
  cases v <;> cases m <;> simp [Route.supports, Method.code] <;> decide

/-! ## The theorem -/

/-- The declarations are accepted, and a request is then handled as this says. -/
theorem dispatch_exact (ds : List Decl) (hg : ∀ d ∈ ds, d.Good) (hn : (ds.map fun d => d.lead ++ d.fixed).Nodup) :
    ∃ routes, Router.addAll (Trie.new Route) 0 (ds.map Decl.text) = .ok routes ∧ ∀ (m : Method) (path : List Nat),
      (∃ i d, ds[i]? = some d ∧ d.lead ++ d.fixed <+: path ∧
        (∀ e ∈ ds, e.lead ++ e.fixed <+: path → (e.lead ++ e.fixed).length ≤ (d.lead ++ d.fixed).length) ∧
        dispatch routes m path = (if m = d.verb then
          match parseRouteArgs d.names (path.drop (d.lead ++ d.fixed).length) with
          | some ps => .call i ps
          | none => .error 404
        else .error 404)) ∨
      ((∀ e ∈ ds, ¬ e.lead ++ e.fixed <+: path) ∧ dispatch routes m path = .error 404) := by
  have hne : ∀ d ∈ ds, d.lead ++ d.fixed ≠ [] := by
    intro d hd e
    have := (hg d hd).1
    rw [(List.append_eq_nil_iff.1 e).2] at this
    cases this
  obtain ⟨h, e, _, hs⟩ := Trie.addAll_stored (stored 0 ds) Trie.new_tree (by rw [stored_keys]; exact hn) (fun p _ => Trie.new_stored p.1)
  have hs' : ∀ k, Trie.stored h k = Trie.lookup k (stored 0 ds) := by
    intro k
    rw [hs k, Trie.new_stored]
    cases Trie.lookup k (stored 0 ds) <;> rfl
  refine ⟨h, by rw [addAll_eq ds _ _ hg, e], fun m path => ?_⟩
  rcases search_longest h path 0 0 none with ⟨k, r, h1, h2, h3, h4, h5⟩ | ⟨h1, h2⟩
  · left
    have hst : Trie.lookup (path.take k) (stored 0 ds) = some r := by rw [← hs']; exact h3
    obtain ⟨i, d, hi, hk, hr⟩ := stored_lookup ds 0 _ r hst
    have hlen : (d.lead ++ d.fixed).length = k := by rw [hk, List.length_take]; omega
    refine ⟨i, d, hi, by rw [hk]; exact List.take_prefix _ _, ?_, ?_⟩
    · intro d' hd' hp
      obtain ⟨i', hi'⟩ := List.getElem?_of_mem hd'
      have hl := lookup_stored ds 0 i' d' hn hi'
      rw [hlen]
      refine Decidable.byContradiction fun hlt => ?_
      have hle := hp.length_le
      have := h4 (d'.lead ++ d'.fixed).length (by omega) hle
      rw [← List.prefix_iff_eq_take.1 hp] at this
      rw [← hs'] at hl
      unfold Trie.stored at hl
      rw [this] at hl
      cases hl
    · unfold dispatch Router.find
      rw [h5, Nat.zero_add]
      simp only [hr, hlen, Nat.zero_add]
      by_cases hm : m = d.verb
      · have : Route.supports ⟨i, d.names, 1 <<< d.verb.code, false⟩ m = true := (supports_iff _ _ _ _).2 hm
        simp only [this, if_true, if_pos hm, Bool.false_eq_true, if_false]
        cases parseRouteArgs d.names (path.drop k) <;> rfl
      · have : Route.supports ⟨i, d.names, 1 <<< d.verb.code, false⟩ m = false := by
          rw [Bool.eq_false_iff]; exact fun h => hm ((supports_iff _ _ _ _).1 h)
        simp only [this, Bool.false_eq_true, if_false, if_neg hm]
  · right
    refine ⟨?_, by unfold dispatch Router.find; rw [h2]⟩
    intro d hd hp
    obtain ⟨i, hi⟩ := List.getElem?_of_mem hd
    have hl := lookup_stored ds 0 i d hn hi
    have hpos : 1 ≤ (d.lead ++ d.fixed).length := List.length_pos_iff.2 (hne d hd)
    have := h1 _ hpos hp.length_le
    rw [← List.prefix_iff_eq_take.1 hp] at this
    rw [← hs'] at hl
    unfold Trie.stored at hl
    rw [this] at hl
    cases hl

/-- No request path starts with a method. -/
theorem lead_empty (d : Decl) (h : d.Good) (path : List Nat) (hp : path.head? = some 47) (hpre : d.lead ++ d.fixed <+: path) :
    d.method = none := by
  cases hm : d.method with
  | none => rfl
  | some mk =>
    obtain ⟨m, k⟩ := mk
    have hmne := h.2.2.2 m k hm
    obtain ⟨t, rfl⟩ := hpre
    exfalso
    have hlead : d.lead = methodName m ++ List.replicate k 32 := by simp [Decl.lead, hm]
    rw [hlead] at hp
    cases m with
    | unknown => exact hmne rfl
    | _ => exact absurd (Option.some.inj hp) (by decide)

/-- **C108 (partial).** After any declarations of routes with different texts, a request is given to a handler only if it
matches the declaration of that handler, and its parameters are those of the match.  Conversely a request that matches a
declaration without a method is given to its handler with the matching parameters, if no longer declared path is a
prefix of the request's.  The full statement says that of every declaration, and without that condition;
`explicit_method_never_called`, `shadowed_by_prefix` and `root_parameter_never_called` show that it fails. -/
theorem routing_partial (ds : List Decl) (hg : ∀ d ∈ ds, d.Good) (hn : (ds.map fun d => d.lead ++ d.fixed).Nodup) :
    ∃ routes, Router.addAll (Trie.new Route) 0 (ds.map Decl.text) = .ok routes ∧
      ∀ (m : Method) (path : List Nat), path.head? = some 47 →
        (∀ i binds, dispatch routes m path = .call i binds → ∃ d, ds[i]? = some d ∧ d.Matches m path binds) ∧
        (∀ i d binds, ds[i]? = some d → d.method = none → d.Matches m path binds →
          (∀ e ∈ ds, e.fixed <+: path → e.fixed.length ≤ d.fixed.length) → dispatch routes m path = .call i binds) ∧
        ((∀ i binds, dispatch routes m path ≠ .call i binds) → dispatch routes m path = .error 404) := by
  obtain ⟨routes, h1, h2⟩ := dispatch_exact ds hg hn
  refine ⟨routes, h1, fun m path hp => ⟨?_, ?_, ?_⟩⟩
  · intro i binds hc
    rcases h2 m path with ⟨j, d, hj, hpre, _, he⟩ | ⟨_, he⟩
    · have hmd := lead_empty d (hg d (List.mem_of_getElem? hj)) path hp hpre
      have hlead : d.lead = [] := by simp [Decl.lead, hmd]
      rw [hlead, List.nil_append] at hpre he
      rw [he] at hc
      split at hc
      · next hv =>
        cases ha : parseRouteArgs d.names (path.drop d.fixed.length) with
        | none => rw [ha] at hc; cases hc
        | some ps =>
          rw [ha] at hc
          cases hc
          obtain ⟨values, query, a1, a2, a3, a4, a5⟩ := args_only _ _ _ ha
          refine ⟨d, hj, hv, values, query, ?_, a2, a3, a4, a5⟩
          obtain ⟨t, rfl⟩ := hpre
          rw [List.drop_left] at a1
          rw [a1, List.append_assoc]
      · cases hc
    · rw [he] at hc; cases hc
  · intro i d binds hi hmd hmatch hlong
    obtain ⟨hv, values, query, hpath, a2, a3, a4, a5⟩ := hmatch
    have hlead : d.lead = [] := by simp [Decl.lead, hmd]
    have hdpre : d.lead ++ d.fixed <+: path := by rw [hlead, List.nil_append, hpath, List.append_assoc]; exact List.prefix_append _ _
    rcases h2 m path with ⟨j, e, hj, hpre, hmax, he⟩ | ⟨hno, _⟩
    · have hemem := List.mem_of_getElem? hj
      have hdmem := List.mem_of_getElem? hi
      have hme := lead_empty e (hg e hemem) path hp hpre
      have hle : e.lead = [] := by simp [Decl.lead, hme]
      have l1 := hmax d hdmem hdpre
      rw [hle, hlead, List.nil_append, List.nil_append] at l1
      have hpre' : e.fixed <+: path := by rw [hle] at hpre; exact hpre
      have l2 := hlong e hemem hpre'
      have hfe : e.fixed = d.fixed := by
        have hd' : d.fixed <+: path := by rw [hlead] at hdpre; exact hdpre
        rw [List.prefix_iff_eq_take.1 hpre', List.prefix_iff_eq_take.1 hd']
        congr 1
        omega
      have hij : i = j := by
        have k1 : (ds.map fun d => d.lead ++ d.fixed)[i]? = some (d.lead ++ d.fixed) := by rw [List.getElem?_map, hi]; rfl
        have k2 : (ds.map fun d => d.lead ++ d.fixed)[j]? = some (d.lead ++ d.fixed) := by
          rw [List.getElem?_map, hj]; simp [hle, hlead, hfe]
        have hilt : i < (ds.map fun d => d.lead ++ d.fixed).length := by
          rcases Nat.lt_or_ge i (ds.map fun d => d.lead ++ d.fixed).length with h | h
          · exact h
          · rw [List.getElem?_eq_none h] at k1; cases k1
        exact (List.getElem?_inj hilt hn).1 (k1.trans k2.symm)
      subst hij
      rw [hi] at hj
      cases hj
      rw [he, if_pos hv, hlead, List.nil_append, hpath, List.append_assoc, List.drop_left, args_read _ _ _ a4 a3 a2, a5]
    · exact absurd hdpre (hno d (List.mem_of_getElem? hi))
  · intro hno
    rcases h2 m path with ⟨j, d, _, _, _, he⟩ | ⟨_, he⟩
    · rw [he] at hno ⊢
      split
      · next hv =>
        cases ha : parseRouteArgs d.names (path.drop (d.lead ++ d.fixed).length) with
        | none => rfl
        | some ps => exact absurd (by rw [if_pos hv, ha]) (hno j ps)
      · rfl
    · exact he

/-- A handler of a declaration with a method, even `GET`, is never called: the trie keeps the method as part of the
path. -/
theorem explicit_method_never_called (ds : List Decl) (hg : ∀ d ∈ ds, d.Good) (hn : (ds.map fun d => d.lead ++ d.fixed).Nodup) :
    ∃ routes, Router.addAll (Trie.new Route) 0 (ds.map Decl.text) = .ok routes ∧
      ∀ (m : Method) (path : List Nat), path.head? = some 47 → ∀ i binds, dispatch routes m path = .call i binds →
        ∃ d, ds[i]? = some d ∧ d.method = none := by
  obtain ⟨routes, h1, h2⟩ := dispatch_exact ds hg hn
  refine ⟨routes, h1, fun m path hp i binds hc => ?_⟩
  rcases h2 m path with ⟨j, d, hj, hpre, _, he⟩ | ⟨_, he⟩
  · have hmd := lead_empty d (hg d (List.mem_of_getElem? hj)) path hp hpre
    rw [he] at hc
    split at hc
    · cases ha : parseRouteArgs d.names (path.drop (d.lead ++ d.fixed).length) with
      | none => rw [ha] at hc; cases hc
      | some ps => rw [ha] at hc; cases hc; exact ⟨d, hj, hmd⟩
    · cases hc
  · rw [he] at hc; cases hc

/-- With `/a/{x}` and `/a/b` declared, no request for `/a/bc` is answered, though the first declaration matches it. -/
theorem shadowed_by_prefix (a x b c : List Nat) (ha : a.head? = some 47) (hab : 123 ∉ a) (hx : 125 ∉ x) (hb : 123 ∉ b ∧ 47 ∉ b ∧ 63 ∉ b)
    (hc : c ≠ [] ∧ 47 ∉ c ∧ 63 ∉ c) :
    let d : Decl := ⟨none, a, [x]⟩
    let e : Decl := ⟨none, a ++ 47 :: b, []⟩
    let path := a ++ 47 :: b ++ c
    d.Matches .get path [(x, b ++ c)] ∧ (∀ m binds, ¬ e.Matches m path binds) ∧
    ∃ routes, Router.addAll (Trie.new Route) 0 [d.text, e.text] = .ok routes ∧ ∀ m, dispatch routes m path = .error 404 := by
  intro d e path
  have hpath : path.head? = some 47 := by
    cases a with
    | nil => cases ha
    | cons y ys => exact ha
  have he0 : ∀ m binds, ¬ e.Matches m path binds := by
    rintro m binds ⟨_, values, query, hp, hq, _, hl, _⟩
    have : values = [] := List.eq_nil_of_length_eq_zero hl
    subst this
    have hcq : c = query := List.append_cancel_left (as := a ++ 47 :: b) (by simpa [path, e] using hp)
    rcases hq with h | h
    · exact hc.1 (hcq.trans h)
    · rw [← hcq] at h
      cases c with
      | nil => cases h
      | cons y ys => simp at h; subst h; exact hc.2.2 (by simp)
  refine ⟨⟨rfl, [b ++ c], [], by simp [path, d], Or.inl rfl, ?_, rfl, rfl⟩, he0, ?_⟩
  · intro v hv
    simp only [List.mem_singleton] at hv
    subst hv
    simp only [List.mem_append]
    exact ⟨fun h => h.elim hb.2.1 hc.2.1, fun h => h.elim hb.2.2 hc.2.2⟩
  · have hg : ∀ f ∈ [d, e], f.Good := by
      intro f hf
      simp only [List.mem_cons, List.not_mem_nil, or_false] at hf
      rcases hf with rfl | rfl
      · exact ⟨ha, hab, by simpa [d] using hx, by simp [d]⟩
      · refine ⟨?_, ?_, by simp [e], by simp [e]⟩
        · cases a with
          | nil => cases ha
          | cons y ys => exact ha
        · simp [e, hab, hb.1]
    have hn : ([d, e].map fun d => d.lead ++ d.fixed).Nodup := by
      simp [d, e, Decl.lead]
    obtain ⟨routes, h1, h2⟩ := dispatch_exact [d, e] hg hn
    refine ⟨routes, h1, fun m => ?_⟩
    rcases h2 m path with ⟨j, f, hj, hpre, hmax, hd⟩ | ⟨_, hd⟩
    · have hepre : e.lead ++ e.fixed <+: path := List.prefix_append _ _
      have hle := hmax e (by simp) hepre
      match j, hj with
      | 0, hj =>
        cases hj
        simp [d, e, Decl.lead] at hle
        omega
      | 1, hj =>
        cases hj
        rw [hd]
        split
        · next hv =>
          cases hr : parseRouteArgs e.names (path.drop (e.lead ++ e.fixed).length) with
          | none => rfl
          | some ps =>
            exfalso
            obtain ⟨values, query, a1, a2, a3, a4, a5⟩ := args_only _ _ _ hr
            refine he0 m ps ⟨hv, values, query, ?_, a2, a3, a4, a5⟩
            obtain ⟨t, ht⟩ := hepre
            rw [← ht, List.drop_left] at a1
            rw [← ht, a1, ← List.append_assoc]
            rfl
        · rfl
      | j + 2, hj => simp at hj
    · exact hd

/-- A route `/{x}` at the root is never called. -/
theorem root_parameter_never_called (x : List Nat) (hx : 125 ∉ x) :
    ∃ routes, Router.addAll (Trie.new Route) 0 [47 :: 123 :: (x ++ [125])] = .ok routes ∧ ∀ m path, dispatch routes m path = .error 404 := by
  have hp := params_read [x] ((47 :: 123 :: (x ++ [125])).length + 1) (by simp) (by simpa using hx)
  simp only [List.flatMap_cons, List.flatMap_nil, List.append_nil] at hp
  have hpe : prefixEnd (47 :: 123 :: (x ++ [125])) 0 = 0 := by simp [prefixEnd]
  obtain ⟨h, hadd, hs⟩ : ∃ h, Trie.add (Trie.new Route) [] ⟨0, [x], 1 <<< Method.get.code, false⟩ = some h ∧ ∀ n c, h.child n c = none := by
    refine ⟨_, rfl, fun n c => rfl⟩
  refine ⟨h, ?_, fun m path => ?_⟩
  · rw [Router.addAll, Router.add]
    simp only [rd, List.getElem?_cons_zero, Out.bind_ok, addRoute, hpe, List.drop_zero, List.take_zero, hp]
    simp [hadd, Router.addAll]
  · unfold dispatch Router.find
    cases path with
    | nil => rfl
    | cons c cs => rw [Trie.findLoop, hs]

/-- Two proper declarations, `/u/{id}` and `/u/{id}`'s neighbour `/v`, and what requests for them do. -/
example : (⟨none, [47, 117], [[105]]⟩ : Decl).Good ∧ (⟨none, [47, 118], []⟩ : Decl).Good ∧
    (⟨none, [47, 117], [[105]]⟩ : Decl).Matches .get [47, 117, 47, 55, 63, 113] [([105], [55])] ∧
    (match Router.addAll (Trie.new Route) 0 [(⟨none, [47, 117], [[105]]⟩ : Decl).text, (⟨none, [47, 118], []⟩ : Decl).text] with
      | .ok r => dispatch r .get [47, 117, 47, 55, 63, 113] = .call 0 [([105], [55])] ∧ dispatch r .get [47, 118] = .call 1 [] ∧
        dispatch r .post [47, 118] = .error 404
      | _ => False) := by
  refine ⟨⟨rfl, by decide, by decide, by intro m k h; cases h⟩, ⟨rfl, by decide, by decide, by intro m k h; cases h⟩,
    ⟨rfl, [[55]], [63, 113], rfl, Or.inr rfl, by decide, rfl, rfl⟩, ?_⟩
  exact ⟨rfl, rfl, rfl⟩

/-- `/a/{x}` and `/a/b` with a request for `/a/bc` is such a case. -/
example := shadowed_by_prefix [47, 97] [120] [98] [99] rfl (by decide) (by decide) (by decide) (by decide)

end Verif.Http
