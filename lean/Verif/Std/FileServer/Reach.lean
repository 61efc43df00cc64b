import Verif.Std.FileServer.Serve
/-! # Which files can be had from the file server (C112, C113, C114)

Source: /repo/src/cxy/stdlib/fserver.cxy 120-160, 238-247, 415-489 and 531-559; path.cxy 40-48. -/
namespace Verif.FileServer

open Verif.Http (View lift str number lift_ok)

/-- A request `GET uri` without other headers. -/
def fetch (uri : List Nat) : Req := ⟨true, uri, none, none⟩

/-- A reply with the whole content. -/
def whole (content : List Nat) : Reply := ⟨200, some content, none⟩

/-- The path of names below a directory. -/
def below (parts : List Name) : List Nat := parts.flatMap (47 :: ·)

/-- The path ends with an extension that the server knows. -/
def Known (cfg : Config) (uri : List Nat) : Prop :=
  ∃ pre e mm, uri = pre ++ 46 :: e ∧ pre ≠ [] ∧ 46 ∉ e ∧ find cfg.mimes (46 :: e) = some mm

theorem pathText_last {root : List Name} (h : ∀ n ∈ root, Proper n) : (pathText root).getLast? = some 47 ↔ root = [] := by
  unfold pathText
  constructor
  · intro e
    apply Decidable.byContradiction
    intro hr
    rw [if_neg hr] at e
    obtain ⟨parent, base, rfl⟩ : ∃ p b, root = p ++ [b] := ⟨_, _, (List.dropLast_concat_getLast hr).symm⟩
    have hb := h base (by simp)
    simp only [List.flatMap_append, List.flatMap_cons, List.flatMap_nil, List.append_nil, List.getLast?_append] at e
    obtain ⟨c, cs, rfl⟩ := List.exists_cons_of_ne_nil hb.1
    rw [List.getLast?_cons_cons] at e
    cases hl : (c :: cs).getLast? with
    | none => simp at hl
    | some x =>
      rw [hl] at e
      simp at e
      subst e
      exact hb.2.2.2 (List.mem_of_getLast? hl)
  · rintro rfl
    rfl

/-- The parts of a path below the root. -/
theorem split_join {root : List Name} (h : ∀ n ∈ root, Proper n) (parts : List Name) (hp : ∀ n ∈ parts, 47 ∉ n) :
    split (join (pathText root) (below parts)) = [] :: (root ++ [] :: parts) := by
  unfold join
  by_cases hr : root = []
  · subst hr
    rw [if_pos ((pathText_last h).2 rfl)]
    have := split_names ([] :: parts) [] (by simp) (by
      intro n hn
      rcases List.mem_cons.1 hn with rfl | hn
      · simp
      · exact hp n hn)
    simpa [pathText, below] using this
  · rw [if_neg (fun e => hr ((pathText_last h).1 e))]
    have := split_names (root ++ [] :: parts) [] (by simp) (by
      intro n hn
      rcases List.mem_append.1 hn with hn | hn
      · exact (h n hn).2.2.2
      · rcases List.mem_cons.1 hn with rfl | hn
        · simp
        · exact hp n hn)
    rw [← this]
    congr 1
    simp [pathText, below, hr]

theorem join_head {root : List Name} (s : List Nat) : (join (pathText root) s).head? = some 47 := by
  have := pathText_head root
  unfold join
  cases hp : pathText root with
  | nil => rw [hp] at this; cases this
  | cons c cs =>
    rw [hp] at this
    split <;> simpa using this

/-- From the root directory the parts are followed. -/
theorem realpath_join {fs : Fs} (h0 : fs [] = some .dir) {root : List Name} (hw : Walk fs root) (hd : fs root = some .dir)
    (parts : List Name) (hp : ∀ n ∈ parts, 47 ∉ n) :
    realpath fs (join (pathText root) (below parts)) = resolve fs 40 root parts := by
  unfold realpath
  rw [if_pos (join_head _), split_join hw.proper parts hp, resolve, if_pos h0, if_pos (Or.inl rfl),
    resolve_through fs 40 root [] _ (by simpa using hw) (by simp [hd]), List.nil_append, resolve, if_pos hd, if_pos (Or.inl rfl)]

/-- A request for a file gets to the answer of it. -/
theorem handle_answer {fs : Fs} (h0 : fs [] = some .dir) (cfg : Config) (hz : 0 ∉ cfg.www) {pre e : List Nat} (hne : pre ≠ []) (he : 46 ∉ e)
    {names : List Name} {req : Req} (hu : req.uri = pre ++ 46 :: e) (hreal : realpath fs (join cfg.www req.uri) = some names) {c : List Nat}
    {t : Nat} (hk : fs names = some (.file c t)) (hpre : cfg.www <+: pathText names) (cache : Cache) (fuel : Nat) :
    handle fuel cfg fs cache req = answer fuel cfg fs cache req (pathText names) (46 :: e) := by
  rw [hu] at hreal
  have hw := (realpath_walk h0 hreal).1
  have hloc : locate cfg req.uri = .ok (some (pre ++ 46 :: e, pre.length)) := by
    unfold locate
    rw [hu]
    rw [if_neg (by simp)]
    simp only
    rw [Http.rindex_found pre e 46 hne he, lift_ok, Out.bind_ok]
  have hex : fileExists fs cfg.www (pre ++ 46 :: e) = some (pathText names) := by
    unfold fileExists
    rw [hreal]
    simp only
    rw [if_pos ((buffer_prefix _ _ hz).2 hpre), lookup_pathText h0 hw (by simp [hk]), hk]
  have hsub : Str.substr (pre ++ 46 :: e) pre.length (-1) = .ok (46 :: e) := by
    unfold Str.substr
    simp
  unfold handle
  rw [hloc, Out.bind_ok]
  simp only
  rw [hex]
  simp only
  rw [hsub, lift_ok, Out.bind_ok]

/-- The answer to a request for a file. -/
theorem handle_file {fs : Fs} (h0 : fs [] = some .dir) (cfg : Config) (hz : 0 ∉ cfg.www) {uri : List Nat} (hu : Known cfg uri)
    {names : List Name} (hreal : realpath fs (join cfg.www uri) = some names) {c : List Nat} {t : Nat}
    (hk : fs names = some (.file c t)) (hpre : cfg.www <+: pathText names) (cache : Cache) {cache' : Cache} {cf : Cached}
    (hl : loadFile fs cache (pathText names) = (cache', some cf)) (fuel : Nat) :
    handle fuel cfg fs cache (fetch uri) = .ok (cache', whole cf.data) := by
  obtain ⟨pre, e, mm, rfl, hne, he, hm⟩ := hu
  rw [handle_answer h0 cfg hz hne he (req := fetch (pre ++ 46 :: e)) rfl hreal hk hpre cache fuel]
  unfold answer
  rw [hm]
  simp only
  rw [hl]
  simp [notModified, fetch, prepareResponse, whole]

theorem load_new {fs : Fs} (h0 : fs [] = some .dir) {names : List Name} (hw : Walk fs names) {c : List Nat} {t : Nat}
    (hk : fs names = some (.file c t)) (cache : Cache) (hf : find cache (pathText names) = none) :
    loadFile fs cache (pathText names) = (cache ++ [(pathText names, ⟨pathText names, c, t⟩)], some ⟨pathText names, c, t⟩) := by
  unfold loadFile
  rw [hf]
  simp only
  rw [lookup_pathText h0 hw (by simp [hk]), hk]

/-- **C114 (partial).** Every regular file below the root that is reached without symbolic links and has a known extension is
sent when its path is asked for.  The full statement allows a query after the path; `query_is_not_found` shows that it fails. -/
theorem file_is_served_partial {fs : Fs} (h0 : fs [] = some .dir) {cfg : Config} {root : List Name} (hr : Rooted cfg root)
    (hd : fs root = some .dir) (parts : List Name) (hw : Walk fs (root ++ parts)) {c : List Nat} {t : Nat}
    (hk : fs (root ++ parts) = some (.file c t)) (hu : Known cfg (below parts)) (fuel : Nat) :
    ∃ cache, handle fuel cfg fs [] (fetch (below parts)) = .ok (cache, whole c) := by
  have hroot : Walk fs root := by
    refine ⟨hr.proper, fun k hlt => ?_, by simp [hd]⟩
    have := hw.dirs k (by simp; omega)
    rwa [List.take_append_of_le_length (by omega)] at this
  have hreal : realpath fs (join cfg.www (below parts)) = some (root ++ parts) := by
    rw [hr.www, realpath_join h0 hroot hd parts (fun n hn => (hw.proper n (by simp [hn])).2.2.2)]
    have := resolve_through fs 40 parts root [] hw (by simp [hk])
    rw [List.append_nil] at this
    rw [this, resolve, if_pos (by simp [hk])]
  have hpre : cfg.www <+: pathText (root ++ parts) := by
    rw [hr.www]
    unfold pathText
    by_cases h : root = []
    · subst h
      by_cases h2 : parts = []
      · subst h2; simp
      · obtain ⟨n, ns, rfl⟩ := List.exists_cons_of_ne_nil h2
        simp
    · rw [if_neg h, if_neg (by simp [h])]
      simp
  exact ⟨_, handle_file h0 cfg hr.nul hu hreal hk hpre [] (load_new h0 hw hk [] rfl) fuel⟩

/-- **C112 fails**: a file beside the root, in a directory whose name goes on after the name of the root (`/srv/www-private`
for the root `/srv/www`), is sent when it is asked for with `/../`. -/
theorem sibling_is_served {fs : Fs} (h0 : fs [] = some .dir) {cfg : Config} {parent : List Name} {base sfx : Name}
    (hr : Rooted cfg (parent ++ [base])) (hroot : Walk fs (parent ++ [base])) (hd : fs (parent ++ [base]) = some .dir)
    (rest : List Name) (hw : Walk fs (parent ++ (base ++ sfx) :: rest)) {c : List Nat} {t : Nat}
    (hk : fs (parent ++ (base ++ sfx) :: rest) = some (.file c t)) (hu : Known cfg (below ([46, 46] :: (base ++ sfx) :: rest)))
    (hs : sfx ≠ []) (fuel : Nat) :
    (∃ cache, handle fuel cfg fs [] (fetch (below ([46, 46] :: (base ++ sfx) :: rest))) = .ok (cache, whole c)) ∧
      ¬ (parent ++ [base]) <+: (parent ++ (base ++ sfx) :: rest) := by
  refine ⟨?_, ?_⟩
  · have hparts : ∀ n ∈ [46, 46] :: (base ++ sfx) :: rest, 47 ∉ n := by
      intro n hn
      rcases List.mem_cons.1 hn with rfl | hn
      · decide
      · exact (hw.proper n (List.mem_append_right _ hn)).2.2.2
    have hreal : realpath fs (join cfg.www (below ([46, 46] :: (base ++ sfx) :: rest))) = some (parent ++ (base ++ sfx) :: rest) := by
      rw [hr.www, realpath_join h0 hroot hd _ hparts, resolve, if_pos hd, if_neg (by decide), if_pos rfl, List.dropLast_concat]
      have := resolve_through fs 40 ((base ++ sfx) :: rest) parent [] hw (by simp [hk])
      rw [List.append_nil] at this
      rw [this, resolve, if_pos (by simp [hk])]
    have hpre : cfg.www <+: pathText (parent ++ (base ++ sfx) :: rest) := by
      rw [hr.www]
      unfold pathText
      rw [if_neg (by simp), if_neg (by simp)]
      simp only [List.flatMap_append, List.flatMap_cons, List.flatMap_nil, List.append_nil, List.cons_append, List.append_assoc]
      rw [List.prefix_append_right_inj]
      simp
    exact ⟨_, handle_file h0 cfg hr.nul hu hreal hk hpre [] (load_new h0 hw hk [] rfl) fuel⟩
  · rw [List.prefix_append_right_inj, List.cons_prefix_cons]
    intro h
    have := congrArg List.length h.1
    simp at this
    exact hs this

/-- **C112 fails** when the configured root does not exist and `realpath` leaves the buffer alone: then every file of the
machine that has a known extension is sent. -/
theorem missing_root_serves_all {fs : Fs} (h0 : fs [] = some .dir) {cfg : Config} {root : List Nat} (hroot : realpath fs root = none)
    (hwww : cfg.www = setupWwwDir fs root []) {parts : List Name} (hw : Walk fs parts) {c : List Nat} {t : Nat}
    (hk : fs parts = some (.file c t)) (hu : Known cfg (below parts)) (fuel : Nat) :
    ∃ cache, handle fuel cfg fs [] (fetch (below parts)) = .ok (cache, whole c) := by
  have hz : cfg.www = [] := by rw [hwww, setupWwwDir, hroot]
  have hreal : realpath fs (join cfg.www (below parts)) = some parts := by
    rw [hz]
    have hsplit := split_names ([] :: parts) [] (by simp) (by
      intro n hn
      rcases List.mem_cons.1 hn with rfl | hn
      · simp
      · exact (hw.proper n hn).2.2.2)
    have hj : join [] (below parts) = [] ++ ([] :: parts).flatMap (47 :: ·) := by simp [join, below]
    unfold realpath
    rw [hj, if_pos (by simp), hsplit, resolve, if_pos h0, if_pos (Or.inl rfl), resolve, if_pos h0, if_pos (Or.inl rfl)]
    have := resolve_through fs 40 parts [] [] (by simpa using hw) (by simp [hk])
    rw [List.append_nil] at this
    rw [this, List.nil_append, resolve, if_pos (by simp [hk])]
  exact ⟨_, handle_file h0 cfg (by simp [hz]) hu hreal hk (by simp [hz]) [] (load_new h0 hw hk [] rfl) fuel⟩

/-- **C114 fails** with a query: it is taken for a part of the name, so the file is not found. -/
theorem query_is_not_found {fs : Fs} (h0 : fs [] = some .dir) {cfg : Config} {root : List Name} (hr : Rooted cfg root)
    (hd : fs root = some .dir) (dirs : List Name) (name query : List Nat) (hw : Walk fs (root ++ dirs)) (hdir : fs (root ++ dirs) = some .dir)
    (hn : Proper name) (hq : 47 ∉ query) (hno : fs (root ++ dirs ++ [name ++ 63 :: query]) = none) (hdot : 46 ∈ name) (cache : Cache)
    (fuel : Nat) :
    handle fuel cfg fs cache (fetch (below (dirs ++ [name]) ++ 63 :: query)) = .ok (cache, .plain 404) := by
  have hroot : Walk fs root := by
    refine ⟨hr.proper, fun k hlt => ?_, by simp [hd]⟩
    have := hw.dirs k (by simp; omega)
    rwa [List.take_append_of_le_length (by omega)] at this
  have hb : below (dirs ++ [name]) ++ 63 :: query = below (dirs ++ [name ++ 63 :: query]) := by simp [below]
  rw [hb]
  have hreal : realpath fs (join cfg.www (below (dirs ++ [name ++ 63 :: query]))) = none := by
    rw [hr.www, realpath_join h0 hroot hd]
    · rw [resolve_through fs 40 dirs root _ hw (by simp [hdir]), resolve, if_pos hdir, if_neg, if_neg, hno]
      · intro h
        have := congrArg (63 ∈ ·) h
        simp at this
      · rintro (h | h)
        · simp at h
        · have := congrArg (63 ∈ ·) h
          simp at this
    · intro n hm
      rcases List.mem_append.1 hm with hm | hm
      · exact (hw.proper n (List.mem_append_right _ hm)).2.2.2
      · rw [List.mem_singleton.1 hm]
        simp [hn.2.2.2, hq]
  have hloc : ∃ i, locate cfg (fetch (below (dirs ++ [name ++ 63 :: query]))).uri =
      .ok (some (below (dirs ++ [name ++ 63 :: query]), i)) := by
    obtain ⟨r, hr1, hr2⟩ := Str.rIndexOf_last (below (dirs ++ [name ++ 63 :: query])) 46
    have hmem : ∃ k, 0 < k ∧ (below (dirs ++ [name ++ 63 :: query]))[k]? = some 46 := by
      have hin : 46 ∈ below (dirs ++ [name ++ 63 :: query]) := by simp [below, hdot]
      obtain ⟨k, hk, e⟩ := List.getElem_of_mem hin
      refine ⟨k, ?_, by rw [List.getElem?_eq_getElem hk, e]⟩
      apply Nat.pos_of_ne_zero
      rintro rfl
      have h47 : (below (dirs ++ [name ++ 63 :: query]))[0]? = some 47 := by
        cases dirs <;> simp [below]
      rw [List.getElem?_eq_getElem hk, e] at h47
      cases h47
    cases r with
    | none =>
      obtain ⟨k, hk⟩ := hmem
      exact absurd hk (hr2 k)
    | some i =>
      refine ⟨i, ?_⟩
      unfold locate fetch
      simp only
      rw [if_neg (by cases dirs <;> simp [below])]
      simp only
      rw [hr1, lift_ok, Out.bind_ok]
  obtain ⟨i, hloc⟩ := hloc
  unfold handle
  rw [hloc, Out.bind_ok]
  simp only
  rw [show fileExists fs cfg.www (below (dirs ++ [name ++ 63 :: query])) = none by unfold fileExists; rw [hreal]]

/-! ## Stale and confused content -/

theorem load_again {fs : Fs} (cache : Cache) (path : List Nat) (cf : Cached) (hf : find cache path = some cf)
    (hm : mtime fs cf.path = cf.lastMod) : loadFile fs cache path = (cache, some cf) := by
  unfold loadFile
  rw [hf]
  simp only
  rw [if_neg (by rw [hm]; simp)]

theorem inside_prefix {root parts : List Name} : pathText root <+: pathText (root ++ parts) := by
  unfold pathText
  by_cases h : root = []
  · subst h
    by_cases h2 : parts = []
    · subst h2; simp
    · obtain ⟨n, ns, rfl⟩ := List.exists_cons_of_ne_nil h2
      simp
  · rw [if_neg h, if_neg (by simp [h])]
    simp

theorem realpath_inside {fs : Fs} (h0 : fs [] = some .dir) {cfg : Config} {root : List Name} (hr : Rooted cfg root)
    (hd : fs root = some .dir) {parts : List Name} (hw : Walk fs (root ++ parts)) (hs : (fs (root ++ parts)).isSome) :
    realpath fs (join cfg.www (below parts)) = some (root ++ parts) := by
  have hroot : Walk fs root := by
    refine ⟨hr.proper, fun k hlt => ?_, by simp [hd]⟩
    have := hw.dirs k (by simp; omega)
    rwa [List.take_append_of_le_length (by omega)] at this
  rw [hr.www, realpath_join h0 hroot hd parts (fun n hn => (hw.proper n (by simp [hn])).2.2.2)]
  have := resolve_through fs 40 parts root [] hw hs
  rw [List.append_nil] at this
  rw [this, resolve, if_pos hs]

/-- **C113 fails** for two files whose paths differ in the case of letters only: after the first was sent, its content is sent
for the second too. -/
theorem case_is_confused {fs : Fs} (h0 : fs [] = some .dir) {cfg : Config} {root : List Name} (hr : Rooted cfg root)
    (hd : fs root = some .dir) {p q : List Name} (hp : Walk fs (root ++ p)) (hq : Walk fs (root ++ q)) {c d : List Nat} {t u : Nat}
    (hkp : fs (root ++ p) = some (.file c t)) (hkq : fs (root ++ q) = some (.file d u)) (kp : Known cfg (below p)) (kq : Known cfg (below q))
    (hs : CaseEq (pathText (root ++ p)) (pathText (root ++ q))) (f g : Nat) :
    ∃ cache, run cfg [] [(fs, fetch (below p), f), (fs, fetch (below q), g)] = .ok (cache, [whole c, whole c]) := by
  have h1 := handle_file h0 cfg hr.nul kp (realpath_inside h0 hr hd hp (by simp [hkp])) hkp (by rw [hr.www]; exact inside_prefix) []
    (load_new h0 hp hkp [] rfl) f
  have h2 := handle_file h0 cfg hr.nul kq (realpath_inside h0 hr hd hq (by simp [hkq])) hkq (by rw [hr.www]; exact inside_prefix)
    [(pathText (root ++ p), ⟨pathText (root ++ p), c, t⟩)]
    (load_again (fs := fs) _ _ ⟨pathText (root ++ p), c, t⟩ (by simp [find, (sameCase_iff _ _).2 hs]) (by
      unfold mtime
      simp only
      rw [lookup_pathText h0 hp (by simp [hkp]), hkp])) g
  refine ⟨[(pathText (root ++ p), ⟨pathText (root ++ p), c, t⟩)], ?_⟩
  unfold run
  rw [h1, Out.bind_ok]
  simp only [List.nil_append]
  unfold run
  rw [h2, Out.bind_ok]
  rfl

/-- **C113 fails** for a file that is written again in the same second: the old content is sent. -/
theorem same_second_is_stale {fs fs' : Fs} (h0 : fs [] = some .dir) (h0' : fs' [] = some .dir) {cfg : Config} {root : List Name}
    (hr : Rooted cfg root) (hd : fs root = some .dir) (hd' : fs' root = some .dir) {p : List Name} (hp : Walk fs (root ++ p))
    (hp' : Walk fs' (root ++ p)) {old new : List Nat} {t : Nat} (hk : fs (root ++ p) = some (.file old t))
    (hk' : fs' (root ++ p) = some (.file new t)) (kp : Known cfg (below p)) (f g : Nat) :
    ∃ cache, run cfg [] [(fs, fetch (below p), f), (fs', fetch (below p), g)] = .ok (cache, [whole old, whole old]) := by
  have h1 := handle_file h0 cfg hr.nul kp (realpath_inside h0 hr hd hp (by simp [hk])) hk (by rw [hr.www]; exact inside_prefix) []
    (load_new h0 hp hk [] rfl) f
  have h2 := handle_file h0' cfg hr.nul kp (realpath_inside h0' hr hd' hp' (by simp [hk'])) hk' (by rw [hr.www]; exact inside_prefix)
    [(pathText (root ++ p), ⟨pathText (root ++ p), old, t⟩)]
    (load_again (fs := fs') _ _ ⟨pathText (root ++ p), old, t⟩ (by simp [find, sameCase]) (by
      unfold mtime
      simp only
      rw [lookup_pathText h0' hp' (by simp [hk']), hk'])) g
  refine ⟨[(pathText (root ++ p), ⟨pathText (root ++ p), old, t⟩)], ?_⟩
  unfold run
  rw [h1, Out.bind_ok]
  simp only [List.nil_append]
  unfold run
  rw [h2, Out.bind_ok]
  rfl

/-! ## Examples -/

/-- A file system with the root `/srv/www`, a file below it, a file that differs in case, and a file beside it. -/
def sample : Fs := fun names =>
  if names = [] ∨ names = [str "srv"] ∨ names = [str "srv", str "www"] ∨ names = [str "srv", str "www-old"] then some .dir
  else if names = [str "srv", str "www", str "a.txt"] then some (.file (str "hello") 7)
  else if names = [str "srv", str "www", str "A.txt"] then some (.file (str "HELLO") 8)
  else if names = [str "srv", str "www-old", str "key.txt"] then some (.file (str "secret") 9)
  else none

def sampleConfig : Config := ⟨str "/srv/www", [(str ".txt", ⟨true, true⟩)], []⟩

theorem sample_rooted : Rooted sampleConfig ([str "srv"] ++ [str "www"]) :=
  ⟨by decide +kernel, by simp only [Proper]; decide +kernel, by decide +kernel⟩

theorem sample_known (pre : List Nat) (h : pre ≠ []) : Known sampleConfig (pre ++ str ".txt") :=
  ⟨pre, str "txt", ⟨true, true⟩, rfl, h, by decide, by decide +kernel⟩

instance (n : Name) : Decidable (Proper n) := by unfold Proper; infer_instance

theorem sample_walk (d f : Name) (hd : Proper d) (hf : Proper f) (k : sample [str "srv", d] = some .dir) {c : List Nat} {t : Nat}
    (hk : sample [str "srv", d, f] = some (.file c t)) : Walk sample [str "srv", d, f] := by
  refine ⟨?_, ?_, by rw [hk]; simp⟩
  · intro n hn
    simp only [List.mem_cons, List.not_mem_nil, or_false] at hn
    rcases hn with rfl | rfl | rfl
    · decide
    · exact hd
    · exact hf
  · intro k hlt
    match k with
    | 0 => rfl
    | 1 => rfl
    | 2 => assumption
    | _ + 3 => simp at hlt; omega

theorem walk_a : Walk sample ([str "srv", str "www"] ++ [str "a.txt"]) :=
  sample_walk (str "www") (str "a.txt") (by decide) (by decide) (by decide +kernel) (c := str "hello") (t := 7) (by decide +kernel)

theorem walk_A : Walk sample ([str "srv", str "www"] ++ [str "A.txt"]) :=
  sample_walk (str "www") (str "A.txt") (by decide) (by decide) (by decide +kernel) (c := str "HELLO") (t := 8) (by decide +kernel)

theorem walk_www : Walk sample [str "srv", str "www"] :=
  ⟨by decide +kernel, fun k hlt => by
    match k with
    | 0 => rfl
    | 1 => rfl
    | _ + 2 => simp at hlt; omega, by
    have : sample [str "srv", str "www"] = some .dir := by decide +kernel
    rw [this]; simp⟩

/-- The file below the root is sent. -/
example : ∃ cache, handle 0 sampleConfig sample [] (fetch (str "/a.txt")) = .ok (cache, whole (str "hello")) :=
  file_is_served_partial (root := [str "srv"] ++ [str "www"]) rfl sample_rooted (by decide +kernel) [str "a.txt"]
    walk_a (t := 7) (by decide +kernel) (sample_known (str "/a") (by decide)) 0

/-- The file beside the root is sent too. -/
example : ∃ cache, handle 0 sampleConfig sample [] (fetch (str "/../www-old/key.txt")) = .ok (cache, whole (str "secret")) :=
  (sibling_is_served (parent := [str "srv"]) (base := str "www") (sfx := str "-old") rfl sample_rooted walk_www (by decide +kernel)
    [str "key.txt"]
    (sample_walk (str "www-old") (str "key.txt") (by decide) (by decide) (by decide +kernel) (c := str "secret") (t := 9) (by decide +kernel))
    (t := 9) (by decide +kernel) (sample_known (str "/../www-old/key") (by decide)) (by decide) 0).1

/-- The content of `a.txt` is sent for `A.txt`. -/
example : ∃ cache, run sampleConfig [] [(sample, fetch (str "/a.txt"), 0), (sample, fetch (str "/A.txt"), 0)] =
    .ok (cache, [whole (str "hello"), whole (str "hello")]) :=
  case_is_confused (root := [str "srv"] ++ [str "www"]) rfl sample_rooted (by decide +kernel) (p := [str "a.txt"]) (q := [str "A.txt"])
    walk_a walk_A (t := 7) (d := str "HELLO") (u := 8) (by decide +kernel) (by decide +kernel)
    (sample_known (str "/a") (by decide)) (sample_known (str "/A") (by decide))
    ((sameCase_iff _ _).1 (by decide +kernel)) 0 0

/-- A client that has the file of time 7 since that time is told so. -/
example : (handle 0 sampleConfig sample [] ⟨true, str "/a.txt", some 7, none⟩).bind (fun x => .ok x.2) = .ok (.plain 304) := by
  rw [handle_answer (e := str "txt") (pre := str "/a") (c := str "hello") (t := 7) (fs := sample) rfl sampleConfig (by decide +kernel)
    (by decide) (by decide) (req := ⟨true, str "/a.txt", some 7, none⟩) rfl
    (realpath_inside (fs := sample) (parts := [str "a.txt"]) rfl sample_rooted (by decide +kernel) walk_a (by decide +kernel))
    (by decide +kernel) (by decide +kernel) [] 0]
  unfold answer
  rw [show find sampleConfig.mimes (46 :: str "txt") = some ⟨true, true⟩ by decide +kernel]
  simp only
  rw [load_new (names := [str "srv"] ++ [str "www"] ++ [str "a.txt"]) (c := str "hello") (t := 7) rfl walk_a (by decide +kernel) [] rfl]
  rfl

/-- A query hides the file. -/
example : handle 0 sampleConfig sample [] (fetch (str "/a.txt?v=1")) = .ok ([], .plain 404) :=
  query_is_not_found (root := [str "srv"] ++ [str "www"]) rfl sample_rooted (by decide +kernel) [] (str "a.txt") (str "v=1")
    walk_www (by decide +kernel) (by decide) (by decide) (by decide +kernel) (by decide) [] 0

/-- A history that meets the conditions of `content_is_current_partial`: the file is replaced between two requests. -/
def changed (content : List Nat) (t : Nat) : Fs := fun names =>
  if names = [] ∨ names = [str "srv"] ∨ names = [str "srv", str "www"] then some .dir
  else if names = [str "srv", str "www", str "a.txt"] then some (.file content t)
  else none

def history : List (Fs × Req × Nat) := [(changed (str "old") 1, fetch (str "/a.txt"), 0), (changed (str "new") 2, fetch (str "/a.txt"), 0)]

theorem changed_file {content : List Nat} {t : Nat} {p : List Name} {c : List Nat} {u : Nat} (h : changed content t p = some (.file c u)) :
    p = [str "srv", str "www", str "a.txt"] ∧ c = content ∧ u = t := by
  unfold changed at h
  split at h
  · cases h
  · split at h
    · rename_i hp; cases h; exact ⟨hp, rfl, rfl⟩
    · cases h

example : CaseDistinct (systems history) ∧ Timed (systems history) ∧ ∀ fs ∈ systems history, fs [] = some .dir := by
  refine ⟨?_, ?_, ?_⟩
  · intro fs hfs fs' hfs' p p' c c' t t' h h' _
    simp only [systems, history, List.map_cons, List.map_nil, List.mem_cons, List.not_mem_nil, or_false] at hfs hfs'
    rcases hfs with rfl | rfl <;> rcases hfs' with rfl | rfl <;> rw [(changed_file h).1, (changed_file h').1]
  · intro fs hfs fs' hfs' p c c' t h h'
    simp only [systems, history, List.map_cons, List.map_nil, List.mem_cons, List.not_mem_nil, or_false] at hfs hfs'
    rcases hfs with rfl | rfl <;> rcases hfs' with rfl | rfl <;>
      have h1 := changed_file h <;> have h2 := changed_file h' <;>
      first
        | (have := h1.2.2.symm.trans h2.2.2; omega)
        | rw [h1.2.1, h2.2.1]
  · intro fs hfs
    simp only [systems, history, List.map_cons, List.map_nil, List.mem_cons, List.not_mem_nil, or_false] at hfs
    rcases hfs with rfl | rfl <;> rfl

end Verif.FileServer
