import Verif.Lang.Classes.Tables
/-!
# Calls of virtual functions
-/
namespace Verif.Classes

theorem Derived.trans {a b c : Chain} (h1 : Derived a b) (h2 : Derived b c) : Derived a c := by
  obtain ⟨x, rfl⟩ := h1
  obtain ⟨y, rfl⟩ := h2
  exact ⟨x ++ y, by simp⟩

theorem resolve_some {c t : Chain} {n : Nat} {i : Impl} (h : resolve c n = some (t, i)) :
    Derived c t ∧ ∃ d as m, t = d :: as ∧ i = ⟨d.id, m⟩ ∧ m ∈ d.methods ∧ m.name = n := by
  induction c with
  | nil => simp [resolve] at h
  | cons d as ih =>
    rw [resolve] at h
    match hm : member d n with
    | some m =>
      simp only [hm, Option.some.injEq, Prod.mk.injEq] at h
      obtain ⟨h1, h2⟩ := member_some hm
      exact ⟨⟨[], h.1⟩, d, as, m, h.1.symm, h.2.symm, h1, h2⟩
    | none =>
      simp only [hm] at h
      obtain ⟨⟨ds, rfl⟩, hr⟩ := ih h
      exact ⟨⟨d :: ds, rfl⟩, hr⟩

theorem plain_of_derived {c b : Chain} (h : Derived c b) (hp : Plain c) : Plain b := by
  obtain ⟨ds, rfl⟩ := h
  exact fun d hd => hp d (List.mem_append_right _ hd)

theorem one_of_derived {c b : Chain} {n s : Nat} (h : Derived c b) (ho : OneSignature c n s) : OneSignature b n s := by
  obtain ⟨ds, rfl⟩ := h
  exact fun d hd => ho d (List.mem_append_right _ hd)

theorem means_sig {c : Chain} {n s : Nat} {i : Impl} (h : Means c n s i) : i.method.sig = s := by
  induction h with
  | here _ => rfl
  | above _ _ ih => exact ih

theorem means_derived {ds as : Chain} {n s : Nat} {i : Impl} (h : Means as n s i) : ∃ j, Means (ds ++ as) n s j := by
  induction ds with
  | nil => exact ⟨i, h⟩
  | cons d ds ih =>
    obtain ⟨j, hj⟩ := ih
    by_cases hd : ∃ m ∈ d.methods, m.name = n ∧ m.sig = s
    · obtain ⟨m, hm, rfl, rfl⟩ := hd
      exact ⟨_, .here hm⟩
    · exact ⟨j, .above (fun m hm h => hd ⟨m, hm, h⟩) hj⟩

theorem resolve_of_nearest {c : Chain} {n : Nat} {i : Impl} (h : nearest c n = some i) : ∃ t, resolve c n = some (t, i) := by
  obtain ⟨⟨t, j⟩, h1, h2⟩ := Option.map_eq_some_iff.1 h
  exact ⟨t, by rw [h1, ← h2]⟩

/-- The place of a function in the table of its class is its place in a longer table. -/
theorem place {t u : List Entry} {n : Nat} {ext : List Nat} (hm : ∃ e ∈ t, e.name = n)
    (hu : u.map (·.name) = t.map (·.name) ++ ext) :
    ∃ k e, t.findIdx? (fun e => e.name == n) = some k ∧ u[k]? = some e ∧ e.name = n ∧ e ∈ u := by
  obtain ⟨e0, he0, hn0⟩ := hm
  match hk : t.findIdx? (fun e => e.name == n) with
  | none =>
    rw [List.findIdx?_eq_none_iff] at hk
    have := hk e0 he0
    simp [hn0] at this
  | some k =>
    obtain ⟨hlt, hp, _⟩ := List.findIdx?_eq_some_iff_getElem.1 hk
    have h1 : (u.map (·.name))[k]? = some n := by
      rw [hu, List.getElem?_append_left (by simpa using hlt), List.getElem?_map, List.getElem?_eq_getElem hlt]
      simpa using hp
    rw [List.getElem?_map] at h1
    obtain ⟨e, h2, h3⟩ := Option.map_eq_some_iff.1 h1
    exact ⟨k, e, hk, h2, h3, List.mem_of_getElem? h2⟩

theorem enter_right {c : Chain} {e : Entry} {s : Nat} {i : Impl} (h : Right c e) (hp : Plain c)
    (ho : OneSignature c e.name s) (hi : Means c e.name s i) (hb : i.method.body = true) :
    enter e.sig e.impl = .runs i := by
  obtain ⟨⟨j, h1, h2⟩, d, hd, m, hm, h3, h4⟩ := h
  rw [nearest_of_means hp ho hi] at h1
  obtain rfl := Option.some.inj h1
  have hs : e.sig = s := by rw [← h4]; exact ho d hd m hm h3
  rcases h2 with h2 | ⟨_, h2⟩
  · rw [h2, hs]; simp [enter, hb, means_sig hi]
  · rw [hb] at h2; simp at h2

theorem dispatch_ok {d : Decl} {as obj : Chain} {m : Method} {s : Nat} {i : Impl} (hd : Derived obj (d :: as))
    (hm : m ∈ d.methods) (hv : m.virt = true) (hp : Plain obj) (ho : OneSignature obj m.name s)
    (ht : hasTable obj = true) (hi : Means obj m.name s i) (hb : i.method.body = true) :
    dispatch (d :: as) obj m.name = .runs i := by
  obtain ⟨ds, rfl⟩ := hd
  have hmem := table_mem (as := as) hm hv
  have hf : flagged d = true := List.any_eq_true.2 ⟨m, hm, hv⟩
  suffices h : ∃ u ext, tableOf (ds ++ d :: as) = some u ∧
      u.map (·.name) = (table (d :: as)).map (·.name) ++ ext ∧ ∀ e ∈ u, Right (ds ++ d :: as) e by
    obtain ⟨u, ext, h1, h2, h3⟩ := h
    obtain ⟨k, e, h4, h5, h6, h7⟩ := place hmem h2
    rw [← h6] at ho hi
    unfold dispatch
    rw [h4, h1]
    simp only [h5]
    exact enter_right (h3 e h7) hp ho hi hb
  match ds, hp, ht with
  | [], hp, _ =>
    exact ⟨_, [], by simp [tableOf, hf], by simp, table_right hp⟩
  | x :: ds, hp, ht =>
    obtain ⟨e1, h1⟩ := table_names (x :: ds) (d :: as)
    by_cases hx : flagged x = true
    · exact ⟨_, e1, by simp [tableOf, hx], h1, table_right hp⟩
    · obtain ⟨e2, h2⟩ := table_names ds (d :: as)
      have hr : ∀ e ∈ (table (ds ++ d :: as)).map (replace x), Right (x :: (ds ++ d :: as)) e := by
        intro e he
        obtain ⟨e', he', rfl⟩ := List.mem_map.1 he
        exact replace_right (table_right (fun y hy => hp y (List.mem_cons_of_mem _ hy)) e' he')
      refine ⟨(table (ds ++ d :: as)).map (replace x), e2, ?_, ?_, hr⟩
      · have hxf : flagged x = false := by simpa using hx
        match hy : ds ++ d :: as with
        | [] => simp at hy
        | y :: r =>
          have hyf : flagged y = true := by
            rw [List.cons_append, hy] at ht
            simpa [hasTable, hxf] using ht
          rw [List.cons_append, hy]
          simp [tableOf, hxf, hyf]
      · rw [names_map _ _ (replace_name x), h2]

/-- C133. A call of a virtual function runs the function of the class of the object. Missing: objects of classes that have
no table although a base has one, functions whose nearest declaration is not marked virtual, and functions of the same
name with other parameters. -/
theorem virtual_call_partial {static obj : Chain} {n s : Nat} {i j : Impl} (hd : Derived obj static) (hp : Plain obj)
    (ho : OneSignature obj n s) (hj : Means static n s j) (hv : j.method.virt = true) (ht : hasTable obj = true)
    (hi : Means obj n s i) (hb : i.method.body = true) : call static obj n = some (.runs i) := by
  have hn := nearest_of_means (plain_of_derived hd hp) (one_of_derived hd ho) hj
  obtain ⟨t, hr⟩ := resolve_of_nearest hn
  obtain ⟨h1, d, as, m, rfl, rfl, hm, rfl⟩ := resolve_some hr
  have hf : flagged d = true := List.any_eq_true.2 ⟨m, hm, hv⟩
  simp only at hv
  simp only [call, hr, hf, hv, Bool.and_self, if_true]
  rw [dispatch_ok (hd.trans h1) hm hv hp ho ht hi hb]

/-- C133. A call of a function that is not virtual runs the nearest one that the class of the expression has. -/
theorem plain_call {static : Chain} {n s : Nat} {j : Impl} (obj : Chain) (hp : Plain static)
    (ho : OneSignature static n s) (hj : Means static n s j) (hv : j.method.virt = false) :
    call static obj n = some (.runs j) := by
  obtain ⟨t, hr⟩ := resolve_of_nearest (nearest_of_means hp ho hj)
  simp [call, hr, hv]

/-- C133 is false: an object whose class and base declare no virtual function has no table, so a call of a virtual
function of a class further up reads something else. -/
theorem third_class_has_no_table (c b : Decl) {d : Decl} (ds as : Chain) {m : Method} (hc : flagged c = false)
    (hb : flagged b = false) (hp : Plain (d :: as)) (hm : m ∈ d.methods) (hv : m.virt = true) :
    hasTable (c :: b :: ds ++ d :: as) = false ∧ call (d :: as) (c :: b :: ds ++ d :: as) m.name = some .bad := by
  refine ⟨by simp [hasTable, hc, hb], ?_⟩
  have hf : flagged d = true := List.any_eq_true.2 ⟨m, hm, hv⟩
  have hr : resolve (d :: as) m.name = some (d :: as, ⟨d.id, m⟩) := by
    rw [resolve, member_of_mem (hp d (by simp)) hm]
  simp only [call, hr, hf, hv, Bool.and_self, if_true]
  have : tableOf (c :: b :: ds ++ d :: as) = none := by simp [tableOf, hc, hb]
  simp only [dispatch, this]
  split <;> simp_all

/-- C133 is false: when a class replaces a virtual function without saying `virtual` again, a call on an expression of that
class runs its function whatever the object is, though the same call on an expression of the base does not. -/
theorem unmarked_override_is_final {c b a : Decl} {x y z : Method} (obj : Chain) (hx : x ∈ c.methods) (hy : y ∈ b.methods)
    (hz : z ∈ a.methods) (hn : y.name = x.name) (hn' : z.name = x.name) (hs : y.sig = x.sig) (hs' : z.sig = x.sig)
    (hv : z.virt = true) (hyv : y.virt = false) (hxb : x.body = true) (hne : c.id ≠ b.id)
    (hp : Plain [c, b, a]) (ht : hasTable [c, b, a] = true) :
    call [b, a] obj x.name = some (.runs ⟨b.id, y⟩) ∧ Means [c, b, a] x.name x.sig ⟨c.id, x⟩ ∧
      call [a] [c, b, a] x.name = some (.runs ⟨c.id, x⟩) ∧ (⟨b.id, y⟩ : Impl) ≠ ⟨c.id, x⟩ := by
  have hs1 : OneSignature [c, b, a] x.name x.sig := by
    intro d hd m hm e
    have key : ∀ {d : Decl} {w m : Method}, d ∈ [c, b, a] → w ∈ d.methods → w.name = x.name → w.sig = x.sig →
        m ∈ d.methods → m.name = x.name → m.sig = x.sig := by
      intro d w m hd hw h1 h2 hm h3
      have e1 := member_of_mem (hp d hd) hw
      have e2 := member_of_mem (hp d hd) hm
      rw [h1] at e1
      rw [h3, e1] at e2
      rw [← Option.some.inj e2, h2]
    rcases List.mem_cons.1 hd with rfl | hd'
    · exact key (by simp) hx rfl rfl hm e
    · rcases List.mem_cons.1 hd' with rfl | hd''
      · exact key (by simp) hy hn hs hm e
      · obtain rfl := List.mem_singleton.1 hd''
        exact key (by simp) hz hn' hs' hm e
  have hm1 : Means [c, b, a] x.name x.sig ⟨c.id, x⟩ := .here hx
  have hm2 : Means [b, a] x.name x.sig ⟨b.id, y⟩ := by rw [← hn, ← hs]; exact .here hy
  have hm3 : Means [a] x.name x.sig ⟨a.id, z⟩ := by rw [← hn', ← hs']; exact .here hz
  have d1 : Derived [c, b, a] [b, a] := ⟨[c], rfl⟩
  have d2 : Derived [c, b, a] [a] := ⟨[c, b], rfl⟩
  exact ⟨plain_call obj (plain_of_derived d1 hp) (one_of_derived d1 hs1) hm2 hyv, hm1,
    virtual_call_partial d2 hp hs1 hm3 hv ht hm1 hxb, fun h => hne (congrArg Impl.owner h).symm⟩

/-- C133 is false: a function of a derived class with the name of a virtual function takes its place although its
parameters are different, and is called with the wrong ones. -/
theorem other_parameters_take_the_place {d a : Decl} {x z : Method} (hx : x ∈ d.methods) (hz : z ∈ a.methods)
    (hn : x.name = z.name) (hs : x.sig ≠ z.sig) (hv : z.virt = true) (hp : Plain [d, a]) :
    Means [d, a] z.name z.sig ⟨a.id, z⟩ ∧ call [a] [d, a] z.name = some .bad := by
  have hpd := hp d (by simp)
  have hpa : Plain [a] := plain_of_derived ⟨[d], rfl⟩ hp
  have hf : flagged a = true := List.any_eq_true.2 ⟨z, hz, hv⟩
  have md : member d z.name = some x := by rw [← hn]; exact member_of_mem hpd hx
  constructor
  · refine .above (fun m hm h => ?_) (.here hz)
    have := member_of_mem hpd hm
    rw [h.1, md] at this
    exact hs (by rw [Option.some.inj this]; exact h.2)
  · have hr : resolve [a] z.name = some ([a], ⟨a.id, z⟩) := by
      rw [resolve, member_of_mem (hp a (by simp)) hz]
    simp only [call, hr, hf, hv, Bool.and_self, if_true]
    have hsig : ∀ e ∈ table [a], e.name = z.name → e.sig = z.sig := by
      intro e he en
      obtain ⟨_, d', hd', m, hm, h3, h4⟩ := table_right hpa e he
      obtain rfl := List.mem_singleton.1 hd'
      have e1 := member_of_mem (hp d' (by simp)) hz
      have e2 := member_of_mem (hp d' (by simp)) hm
      rw [h3, en, e1] at e2
      rw [← h4, ← Option.some.inj e2]
    have bad : ∀ (f : Entry → Entry) (u : List Entry) (ext : List Entry), tableOf [d, a] = some u → u = (table [a]).map f ++ ext →
        (∀ e, (f e).name = e.name) → (∀ e, (f e).sig = e.sig) →
        (∀ e, e.name = z.name → (f e).impl = some ⟨d.id, x⟩ ∨ (f e).impl = none) → dispatch [a] [d, a] z.name = .bad := by
      intro f u ext h1 h2 h3 h4 h5
      have hnames : u.map (·.name) = (table [a]).map (·.name) ++ ext.map (·.name) := by
        rw [h2, List.map_append, names_map _ _ h3]
      obtain ⟨k, e, e1, e2, e3, _⟩ := place (table_mem (as := []) hz hv) hnames
      have hk : k < (table [a]).length := (List.findIdx?_eq_some_iff_getElem.1 e1).1
      rw [h2, List.getElem?_append_left (by simpa using hk), List.getElem?_map] at e2
      obtain ⟨e', h6, rfl⟩ := Option.map_eq_some_iff.1 e2
      have hn' : e'.name = z.name := by rw [← h3]; exact e3
      have hs' := hsig e' (List.mem_of_getElem? h6) hn'
      simp only [dispatch, e1, h1]
      rw [h2, List.getElem?_append_left (by simpa using hk), List.getElem?_map, h6]
      simp only [Option.map_some]
      rw [h4, hs']
      rcases h5 e' hn' with h | h <;> rw [h] <;> simp [enter, hs]
    by_cases hd : flagged d = true
    · obtain ⟨ext, he⟩ := addAll_ext d d.methods ((table [a]).map (override d))
      congr 1
      refine bad (override d) _ ext ?_ he (override_name d) (override_sig d) ?_
      · simp only [tableOf, hd, if_true]; rw [table]; simp only [hd, if_true]
      · intro e en; left; simp only [override, en, md]
    · have hdf : flagged d = false := by simpa using hd
      congr 1
      refine bad (replace d) _ [] ?_ (by rw [List.append_nil]) (replace_name d) (replace_sig d) ?_
      · simp [tableOf, hdf, hf]
      · intro e en
        simp only [replace, en, md]
        by_cases hb : x.body = true
        · left; simp [hb]
        · right; simp [hb]

/-- C134. `super.f()` runs the function of the base when that function is not virtual. Missing: virtual functions. -/
theorem super_call_partial {d : Decl} {as : Chain} {n s : Nat} {j : Impl} (obj : Chain) (hp : Plain as)
    (ho : OneSignature as n s) (hj : Means as n s j) (hv : j.method.virt = false) :
    callSuper (d :: as) obj n = some (.runs j) := plain_call obj hp ho hj hv

/-- C134 is false: in the function that replaces a virtual function, `super` leads to that same function. -/
theorem super_calls_itself {d b : Decl} {as : Chain} {x z : Method} (hx : x ∈ d.methods) (hz : z ∈ b.methods)
    (hn : z.name = x.name) (hs : z.sig = x.sig) (hv : z.virt = true) (hb : x.body = true) (hp : Plain (d :: b :: as))
    (ho : OneSignature (d :: b :: as) x.name x.sig) :
    Means (b :: as) x.name x.sig ⟨b.id, z⟩ ∧
      callSuper (d :: b :: as) (d :: b :: as) x.name = some (.runs ⟨d.id, x⟩) := by
  have h1 : Means (b :: as) x.name x.sig ⟨b.id, z⟩ := by rw [← hn, ← hs]; exact .here hz
  have hf : flagged b = true := List.any_eq_true.2 ⟨z, hz, hv⟩
  exact ⟨h1, virtual_call_partial ⟨[d], rfl⟩ hp ho h1 hv (by simp [hasTable, hf]) (.here hx) hb⟩

end Verif.Classes
