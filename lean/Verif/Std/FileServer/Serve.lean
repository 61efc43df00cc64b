import Verif.Std.FileServer.Paths
/-! # What the file server sends: files below its root (C112), with the content they have now (C113)

Source: /repo/src/cxy/stdlib/fserver.cxy 120-160, 261-337, 415-489 and 531-559. -/
namespace Verif.FileServer

open Verif.Http (View lift str number lift_ok)

/-! ## Specification -/

/-- The root directory of the server: given by names that may stand in a file system. -/
structure Rooted (cfg : Config) (root : List Name) : Prop where
  www : cfg.www = pathText root
  proper : ∀ n ∈ root, Proper n
  nul : 0 ∉ cfg.www

/-- The same letter, or the two cases of a letter. -/
def SameLetter (x y : Nat) : Prop := x = y ∨ (65 ≤ x ∧ x ≤ 90 ∧ y = x + 32) ∨ (65 ≤ y ∧ y ≤ 90 ∧ x = y + 32)

/-- Texts of the same length whose letters agree but for their case. -/
def CaseEq : List Nat → List Nat → Prop
  | [], [] => True
  | x :: xs, y :: ys => SameLetter x y ∧ CaseEq xs ys
  | _, _ => False

/-- No two files of the history have paths that differ in the case of letters only. -/
def CaseDistinct (seen : List Fs) : Prop :=
  ∀ fs ∈ seen, ∀ fs' ∈ seen, ∀ p p' c c' t t', fs p = some (.file c t) → fs' p' = some (.file c' t') →
    CaseEq (pathText p) (pathText p') → p = p'

/-- A file whose content changes gets another time of modification. -/
def Timed (seen : List Fs) : Prop :=
  ∀ fs ∈ seen, ∀ fs' ∈ seen, ∀ p c c' t, fs p = some (.file c t) → fs' p = some (.file c' t) → c = c'

/-- The file systems of a history. -/
def systems (evs : List (Fs × Req × Nat)) : List Fs := evs.map (·.1)

theorem sameCase_iff : ∀ a b : List Nat, sameCase a b = true ↔ CaseEq a b
  | [], [] => by simp [sameCase, CaseEq]
  | [], y :: ys => by simp [sameCase, CaseEq]
  | x :: xs, [] => by simp [sameCase, CaseEq]
  | x :: xs, y :: ys => by
    have ih := sameCase_iff xs ys
    simp only [sameCase, decide_eq_true_eq] at ih
    simp only [sameCase, CaseEq, List.map_cons, List.cons.injEq, decide_eq_true_eq, ih, and_congr_left_iff]
    intro _
    unfold lower SameLetter
    split <;> split <;> omega

/-! ## The cache -/

/-- An entry holds the content that a file had at some time. -/
structure Entry (seen : List Fs) (www : List Nat) (e : List Nat × Cached) : Prop where
  key : e.1 = e.2.path
  loaded : ∃ fs ∈ seen, ∃ names, e.2.path = pathText names ∧ fs names = some (.file e.2.data e.2.lastMod)

def Inv (seen : List Fs) (www : List Nat) (cache : Cache) : Prop := ∀ e ∈ cache, Entry seen www e

theorem find_some {β : Type} {m : List (List Nat × β)} {k : List Nat} {v : β} (h : find m k = some v) :
    ∃ e ∈ m, sameCase e.1 k = true ∧ e.2 = v := by
  unfold find at h
  cases hf : m.find? fun e => sameCase e.1 k with
  | none => rw [hf] at h; cases h
  | some e =>
    rw [hf] at h
    exact ⟨e, List.mem_of_find?_eq_some hf, by have := List.find?_some hf; exact this, Option.some.inj h⟩

theorem pathText_inj {p q : List Name} (h1 : ∀ n ∈ p, Proper n) (h2 : ∀ n ∈ q, Proper n) (e : pathText p = pathText q) : p = q := by
  have s1 := split_pathText p h1
  have s2 := split_pathText q h2
  rw [e] at s1
  rw [s1] at s2
  split at s2 <;> split at s2
  · rename_i a b; rw [a, b]
  · rename_i a b
    have := (List.cons.inj s2).2
    subst this
    exact absurd rfl ((h2 [] (by simp)).1)
  · rename_i a b
    have := (List.cons.inj s2).2
    subst this
    exact absurd rfl ((h1 [] (by simp)).1)
  · exact (List.cons.inj s2).2

/-- What `loadFile` gives for the path of a file. -/
theorem loadFile_sound {seen : List Fs} {fs : Fs} (hfs : fs ∈ seen) (h0 : fs [] = some .dir) (hd : CaseDistinct seen) {www : List Nat}
    {cache cache' : Cache} (hi : Inv seen www cache) {names : List Name} (hw : Walk fs names) {c : List Nat} {t : Nat}
    (hk : fs names = some (.file c t)) {r : Option Cached} (e : loadFile fs cache (pathText names) = (cache', r)) :
    Inv seen www cache' ∧ ∃ cf, r = some cf ∧ cf.path = pathText names ∧ cf.lastMod = t ∧ ∃ fs' ∈ seen, fs' names = some (.file cf.data t) := by
  have hlook : lookup fs (pathText names) = some (.file c t) := by rw [lookup_pathText h0 hw (by simp [hk]), hk]
  have hsame : ∀ e ∈ cache, sameCase e.1 (pathText names) = true → e.1 = pathText names ∧
      ∃ fs' ∈ seen, fs' names = some (.file e.2.data e.2.lastMod) := by
    intro e he hs
    obtain ⟨hkey, fs', hfs', names', hp, hk'⟩ := hi e he
    rw [hkey, hp] at hs ⊢
    have := hd fs' hfs' fs hfs _ _ _ _ _ _ hk' hk ((sameCase_iff _ _).1 hs)
    subst this
    exact ⟨rfl, fs', hfs', hk'⟩
  unfold loadFile at e
  split at e
  · rename_i hf
    rw [hlook] at e
    simp only at e
    cases e
    refine ⟨?_, _, rfl, rfl, rfl, fs, hfs, hk⟩
    intro e he
    rcases List.mem_append.1 he with he | he
    · exact hi e he
    · rw [List.mem_singleton.1 he]
      exact ⟨rfl, fs, hfs, names, rfl, hk⟩
  · rename_i cf hf
    obtain ⟨e0, he0, hs0, rfl⟩ := find_some hf
    obtain ⟨hpath, fs', hfs', hk'⟩ := hsame e0 he0 hs0
    rw [(hi e0 he0).key] at hpath
    have hm : mtime fs e0.2.path = t := by
      unfold mtime
      rw [hpath, hlook]
    rw [hm, hpath, hlook] at e
    split at e
    · simp only at e
      cases e
      refine ⟨?_, _, rfl, rfl, rfl, fs, hfs, hk⟩
      intro e he
      obtain ⟨e1, he1, rfl⟩ := List.mem_map.1 he
      split
      · rename_i hs
        have h1 := (hsame e1 he1 hs).1
        exact ⟨h1, fs, hfs, names, rfl, hk⟩
      · exact hi e1 he1
    · rename_i hl
      cases e
      have hl : e0.2.lastMod = t := Decidable.byContradiction hl
      exact ⟨hi, _, rfl, hpath, hl, fs', hfs', by rw [← hl]; exact hk'⟩

/-! ## Requests -/

theorem lift_eq_ok {α : Type} {x : Str.Out α} {a : α} (h : lift x = .ok a) : x = .ok a := by
  cases x <;> simp [lift] at h ⊢
  exact h

theorem bind_eq_ok {α β : Type} {x : Out α} {f : α → Out β} {b : β} (h : x.bind f = .ok b) : ∃ a, x = .ok a ∧ f a = .ok b := by
  cases x with
  | ok a => exact ⟨a, rfl, h⟩
  | abort => cases h
  | ub => cases h
  | diverge => cases h

theorem range_part {fuel : Nat} {data rng : List Nat} {r : Reply} (h : buildRangeResponse fuel data rng = .ok r) :
    ∀ b, r.body = some b → r.status = 206 ∧ b <:+: data := by
  unfold buildRangeResponse at h
  obtain ⟨x, _, h⟩ := bind_eq_ok h
  intro b hb
  split at h
  · cases h; cases hb
  · obtain ⟨part, hp, h⟩ := bind_eq_ok h
    cases h
    cases hb
    obtain ⟨a, z, e, _⟩ := (Str.substr_piece data _ _).1 _ (lift_eq_ok hp)
    exact ⟨rfl, a, z, e.symm⟩
  · cases h; cases hb
  · cases h; cases hb

/-- What is true of a reply that says that the client has the file already: it is the file asked for, and it is no newer. -/
def Unchanged (cfg : Config) (fs : Fs) (req : Req) (reply : Reply) : Prop :=
  reply.status = 304 → ∃ path i names c t since, locate cfg req.uri = .ok (some (path, i)) ∧
    realpath fs (join cfg.www path) = some names ∧ fs names = some (.file c t) ∧ req.since = some since ∧ t ≤ since

/-- What is true of a reply that has content. -/
def Served (seen : List Fs) (cfg : Config) (fs : Fs) (req : Req) (reply : Reply) : Prop :=
  ∀ b, reply.body = some b → ∃ path i names c t data, locate cfg req.uri = .ok (some (path, i)) ∧
    realpath fs (join cfg.www path) = some names ∧ Walk fs names ∧ fs names = some (.file c t) ∧ cfg.www <+: pathText names ∧
    (∃ fs' ∈ seen, fs' names = some (.file data t)) ∧ (b = data ∨ reply.status = 206 ∧ b <:+: data)

/-- Replies with content are not said to be unmodified. -/
theorem prepare_status {fuel : Nat} {req : Req} {cf : Cached} {mm : Mime} {r : Reply} (h : prepareResponse fuel req cf mm = .ok r) :
    r.status ≠ 304 := by
  have hr : ∀ rng, buildRangeResponse fuel cf.data rng = .ok r → r.status ≠ 304 := by
    intro rng h
    unfold buildRangeResponse at h
    obtain ⟨x, _, h⟩ := bind_eq_ok h
    split at h
    · cases h; simp [Reply.plain]
    · obtain ⟨part, hp, h⟩ := bind_eq_ok h
      cases h; simp
    · cases h; simp [Reply.plain]
    · cases h; simp [Reply.plain]
  unfold prepareResponse at h
  split at h
  · split at h
    · exact hr _ h
    · cases h; simp
  · cases h; simp

theorem handle_sound {seen : List Fs} {fs : Fs} (hfs : fs ∈ seen) (h0 : fs [] = some .dir) (hd : CaseDistinct seen)
    {cfg : Config} (hz : 0 ∉ cfg.www) {cache cache' : Cache} (hi : Inv seen cfg.www cache) {fuel : Nat} {req : Req} {reply : Reply}
    (e : handle fuel cfg fs cache req = .ok (cache', reply)) :
    Inv seen cfg.www cache' ∧ Served seen cfg fs req reply ∧ Unchanged cfg fs req reply ∧ (req.get = false → reply.body = none) := by
  have plain : ∀ s, s ≠ 304 → Served seen cfg fs req (.plain s) ∧ Unchanged cfg fs req (.plain s) ∧
      (req.get = false → (Reply.plain s).body = none) :=
    fun s hs => And.intro (fun b hb => by cases hb) ⟨fun h => absurd h hs, fun _ => rfl⟩
  unfold handle at e
  obtain ⟨loc, hloc, e⟩ := bind_eq_ok e
  split at e
  · cases e; exact ⟨hi, plain _ (by decide)⟩
  · rename_i path i
    split at e
    · cases e; exact ⟨hi, plain _ (by decide)⟩
    · rename_i abs hex
      obtain ⟨ext, _, e⟩ := bind_eq_ok e
      have hex2 := hex
      obtain ⟨names, c, t, rfl, hw, hk, hpre⟩ := fileExists_some h0 hz hex
      have hreal : realpath fs (join cfg.www path) = some names := by
        unfold fileExists at hex2
        split at hex2
        · cases hex2
        · rename_i names' hr
          simp only at hex2
          have hw' := (realpath_walk h0 hr).1
          split at hex2
          · split at hex2
            · rw [hr, pathText_inj hw'.proper hw.proper (Option.some.inj hex2)]
            · cases hex2
          · cases hex2
      unfold answer at e
      split at e
      · cases e; exact ⟨hi, plain _ (by decide)⟩
      · rename_i mm hmm
        split at e
        · rename_i cache1 hl
          obtain ⟨_, cf, hcf, _⟩ := loadFile_sound hfs h0 hd hi hw hk hl
          cases hcf
        · rename_i cache1 cf hl
          obtain ⟨hi1, cf', hcf, hp, hm, fs', hfs', hk'⟩ := loadFile_sound hfs h0 hd hi hw hk hl
          cases hcf
          split at e
          · rename_i hnm
            cases e
            refine ⟨hi1, And.intro (fun b hb => by cases hb) ⟨fun _ => ?_, fun _ => rfl⟩⟩
            unfold notModified at hnm
            cases hs : req.since with
            | none => rw [hs] at hnm; simp at hnm
            | some s =>
              rw [hs] at hnm
              simp only [Bool.and_eq_true, decide_eq_true_eq] at hnm
              rw [hm] at hnm
              exact ⟨path, i, names, c, t, s, hloc, hreal, hk, rfl, hnm.2⟩
          · split at e
            · rename_i hget
              obtain ⟨r, hr, e⟩ := bind_eq_ok e
              cases e
              refine ⟨hi1, And.intro (fun b hb => ⟨path, i, names, c, t, cf.data, hloc, hreal, hw, hk, hpre, ⟨fs', hfs', hk'⟩, ?_⟩)
                ⟨fun h => absurd h (prepare_status hr), fun h => by rw [h] at hget; cases hget⟩⟩
              unfold prepareResponse at hr
              split at hr
              · split at hr
                · exact Or.inr (range_part hr b hb)
                · cases hr; cases hb; exact Or.inl rfl
              · cases hr; cases hb; exact Or.inl rfl
            · cases e; exact ⟨hi1, plain _ (by decide)⟩

theorem run_sound {seen : List Fs} (hd : CaseDistinct seen) {cfg : Config} (hz : 0 ∉ cfg.www) :
    ∀ (evs : List (Fs × Req × Nat)) (cache cache' : Cache) (replies : List Reply), (∀ e ∈ evs, e.1 ∈ seen ∧ e.1 [] = some .dir) →
      Inv seen cfg.www cache → run cfg cache evs = .ok (cache', replies) →
      replies.length = evs.length ∧ ∀ x ∈ evs.zip replies, Served seen cfg x.1.1 x.1.2.1 x.2 ∧
        Unchanged cfg x.1.1 x.1.2.1 x.2 ∧ (x.1.2.1.get = false → x.2.body = none)
  | [], cache, cache', replies, _, _, e => by
    cases e
    exact ⟨rfl, by simp⟩
  | (fs, req, fuel) :: evs, cache, cache', replies, h, hi, e => by
    unfold run at e
    obtain ⟨⟨c1, reply⟩, h1, e⟩ := bind_eq_ok e
    obtain ⟨⟨c2, rest⟩, h2, e⟩ := bind_eq_ok e
    obtain ⟨rfl, rfl⟩ := Prod.mk.inj (Out.ok.inj e)
    obtain ⟨hfs, h0⟩ := h (fs, req, fuel) (by simp)
    obtain ⟨hi1, hs⟩ := handle_sound hfs h0 hd hz hi h1
    obtain ⟨hl, ih⟩ := run_sound hd hz evs c1 c2 rest (fun x hx => h x (by simp [hx])) hi1 h2
    refine ⟨by simp [hl], ?_⟩
    intro x hx
    rw [List.zip_cons_cons] at hx
    rcases List.mem_cons.1 hx with rfl | hx
    · exact hs
    · exact ih x hx

/-- **C112 (partial).** Whatever requests come and however the file system changes between them: all content that is sent
is (part of) the content of a regular file whose names, without symbolic links, begin with those of the root directory, or go
through a directory beside the root whose name begins with the name of the root.  The full statement has only the first
case; `sibling_is_served` shows that the second occurs. -/
theorem content_from_root_partial {cfg : Config} {root : List Name} (hr : Rooted cfg root) (evs : List (Fs × Req × Nat))
    (h0 : ∀ fs ∈ systems evs, fs [] = some .dir) (hd : CaseDistinct (systems evs)) {cache : Cache} {replies : List Reply}
    (e : run cfg [] evs = .ok (cache, replies)) :
    replies.length = evs.length ∧ ∀ x ∈ evs.zip replies, ∀ b, x.2.body = some b →
      ∃ fs ∈ systems evs, ∃ names data t, fs names = some (.file data t) ∧ b <:+: data ∧ (root <+: names ∨ Sibling root names) := by
  have hmem : ∀ x ∈ evs, x.1 ∈ systems evs ∧ x.1 [] = some .dir := fun x hx =>
    ⟨List.mem_map_of_mem hx, h0 _ (List.mem_map_of_mem hx)⟩
  obtain ⟨hl, h⟩ := run_sound hd hr.nul evs [] cache replies hmem (by simp [Inv]) e
  refine ⟨hl, fun x hx b hb => ?_⟩
  obtain ⟨path, i, names, c, t, data, _, _, hw, _, hpre, ⟨fs', hfs', hk'⟩, hb'⟩ := (h x hx).1 b hb
  refine ⟨fs', hfs', names, data, t, hk', ?_, ?_⟩
  · rcases hb' with rfl | hb'
    · exact List.infix_rfl
    · exact hb'.2
  · rw [hr.www] at hpre
    exact pathText_prefix root names hr.proper hw.proper hpre

/-- **C113 (partial).** If files whose content changes get another time, and no two paths differ in the case of letters only,
then a reply with status 200 and content has the content that the file has at the time of the request; the file is the one
that the requested path leads to from the root.  The full statement has neither condition; `case_is_confused` and
`same_second_is_stale` show that it fails without them. -/
theorem content_is_current_partial {cfg : Config} {root : List Name} (hr : Rooted cfg root) (evs : List (Fs × Req × Nat))
    (h0 : ∀ fs ∈ systems evs, fs [] = some .dir) (hd : CaseDistinct (systems evs)) (ht : Timed (systems evs)) {cache : Cache}
    {replies : List Reply} (e : run cfg [] evs = .ok (cache, replies)) :
    ∀ x ∈ evs.zip replies, ∀ b, x.2.body = some b → x.2.status = 200 →
      ∃ path i names t, locate cfg x.1.2.1.uri = .ok (some (path, i)) ∧ realpath x.1.1 (join cfg.www path) = some names ∧
        x.1.1 names = some (.file b t) := by
  have hmem : ∀ x ∈ evs, x.1 ∈ systems evs ∧ x.1 [] = some .dir := fun x hx =>
    ⟨List.mem_map_of_mem hx, h0 _ (List.mem_map_of_mem hx)⟩
  obtain ⟨hl, h⟩ := run_sound hd hr.nul evs [] cache replies hmem (by simp [Inv]) e
  intro x hx b hb hst
  obtain ⟨path, i, names, c, t, data, hloc, hreal, _, hk, _, ⟨fs', hfs', hk'⟩, hb'⟩ := (h x hx).1 b hb
  have hx1 : x.1 ∈ evs := (List.of_mem_zip hx).1
  have := ht x.1.1 (hmem _ hx1).1 fs' hfs' names c data t hk hk'
  subst this
  rcases hb' with rfl | hb'
  · exact ⟨path, i, names, t, hloc, hreal, hk⟩
  · rw [hst] at hb'
    exact absurd hb'.1 (by decide)

/-- **C113.** A reply says that the client has the file already (304) only if the file that is asked for has, at the time of the
request, a time of modification that is not after the one the client gave; and replies to `HEAD` have no content. -/
theorem not_modified_is_true {cfg : Config} {root : List Name} (hr : Rooted cfg root) (evs : List (Fs × Req × Nat))
    (h0 : ∀ fs ∈ systems evs, fs [] = some .dir) (hd : CaseDistinct (systems evs)) {cache : Cache}
    {replies : List Reply} (e : run cfg [] evs = .ok (cache, replies)) :
    ∀ x ∈ evs.zip replies, (x.1.2.1.get = false → x.2.body = none) ∧ (x.2.status = 304 → ∃ path i names c t since,
      locate cfg x.1.2.1.uri = .ok (some (path, i)) ∧ realpath x.1.1 (join cfg.www path) = some names ∧
        x.1.1 names = some (.file c t) ∧ x.1.2.1.since = some since ∧ t ≤ since) := by
  have hmem : ∀ x ∈ evs, x.1 ∈ systems evs ∧ x.1 [] = some .dir := fun x hx =>
    ⟨List.mem_map_of_mem hx, h0 _ (List.mem_map_of_mem hx)⟩
  obtain ⟨_, h⟩ := run_sound hd hr.nul evs [] cache replies hmem (by simp [Inv]) e
  exact fun x hx => ⟨(h x hx).2.2, (h x hx).2.1⟩

end Verif.FileServer
