import Verif.Core.StrPool.Lemmas
import Verif.Core.StrPool.Names
/-! # Properties of string interning and of the name builders -/
namespace Verif.StrPool

open Verif.HTable

/-- The bytes of an ASCII string. -/
def ascii (s : String) : Str := s.toList.map (fun c => BitVec.ofNat 8 c.toNat)

/-! ## Specification -/

/-- What a history of interning requests must return: every handle refers to the requested bytes,
and handles are equal exactly when the requested strings are. -/
def Interned (reqs : List Str) (outs : List Handle) : Prop :=
  outs.map Prod.snd = reqs ∧
  ∀ i j, i < outs.length → j < outs.length →
    ((outs[i]?.map Prod.fst = outs[j]?.map Prod.fst) ↔ reqs[i]? = reqs[j]?)

/-! ## C08: interning -/

/-- The 31 hash bits that the table keeps distinguish the requested strings. -/
def NoCollision (reqs : List Str) : Prop :=
  ∀ a ∈ reqs, ∀ b ∈ reqs, key a = key b → a = b

theorem run_spec : ∀ (reqs : List Str) (p : Pool), PInv p →
    (∀ a ∈ (contents p.table).map Prod.snd ++ reqs, ∀ b ∈ (contents p.table).map Prod.snd ++ reqs, key a = key b → a = b) →
    ∃ outs p', run p reqs = .ok (outs, p') ∧ PInv p' ∧ contents p.table ⊆ contents p'.table ∧
      outs ⊆ contents p'.table ∧ outs.map Prod.snd = reqs := by
  intro reqs
  induction reqs with
  | nil => intro p hp _; exact ⟨[], p, rfl, hp, fun _ h => h, by simp, rfl⟩
  | cons s ss ih =>
    intro p hp hnc
    rcases request_cases hp s with ⟨x, hx, hk, hcmp, hr⟩ | ⟨x, hx, hk, hcmp, hr⟩ | ⟨hno, p', hr, hp', hperm⟩
    · have hxs : x.2 = s := hnc _ (List.mem_append_left _ (List.mem_map_of_mem hx)) _ (by simp) hk
      obtain ⟨outs, p'', h1, h2, h3, h4, h5⟩ := ih p hp (fun a ha b hb => hnc a (by
        rcases List.mem_append.mp ha with h | h
        · exact List.mem_append_left _ h
        · exact List.mem_append_right _ (List.mem_cons_of_mem _ h)) b (by
        rcases List.mem_append.mp hb with h | h
        · exact List.mem_append_left _ h
        · exact List.mem_append_right _ (List.mem_cons_of_mem _ h)))
      refine ⟨x :: outs, p'', by simp [run, hr, h1], h2, h3, ?_, by simp [hxs, h5]⟩
      intro y hy
      rcases List.mem_cons.mp hy with rfl | hy
      · exact h3 hx
      · exact h4 hy
    · exfalso
      have hxs : x.2 = s := hnc _ (List.mem_append_left _ (List.mem_map_of_mem hx)) _ (by simp) hk
      rw [hxs, strncmpEq_self] at hcmp
      exact Bool.noConfusion hcmp
    · have hsub : ∀ a ∈ (contents p'.table).map Prod.snd ++ ss, a ∈ (contents p.table).map Prod.snd ++ s :: ss := by
        intro a ha
        rcases List.mem_append.mp ha with h | h
        · obtain ⟨y, hy, rfl⟩ := List.mem_map.mp h
          rcases List.mem_cons.mp (hperm.subset hy) with rfl | hy
          · exact List.mem_append_right _ (List.mem_cons_self ..)
          · exact List.mem_append_left _ (List.mem_map_of_mem hy)
        · exact List.mem_append_right _ (List.mem_cons_of_mem _ h)
      obtain ⟨outs, p'', h1, h2, h3, h4, h5⟩ := ih p' hp' (fun a ha b hb => hnc a (hsub a ha) b (hsub b hb))
      refine ⟨(p.next, s) :: outs, p'', by simp [run, hr, h1], h2, ?_, ?_, by simp [h5]⟩
      · intro y hy; exact h3 (hperm.symm.subset (List.mem_cons_of_mem _ hy))
      · intro y hy
        rcases List.mem_cons.mp hy with rfl | hy
        · exact h3 (hperm.symm.subset (List.mem_cons_self ..))
        · exact h4 hy

/-- **C08 (partial)**: any history of requests among which no two different strings agree on the 31
hash bits kept by the table is answered correctly: right contents, equal handles exactly for equal
strings.  The full statement has no hypothesis on hashes; it is false, see
`interning_can_return_another_string` and `collision_is_mishandled`. -/
theorem interning_correct_partial (reqs : List Str) (h : NoCollision reqs) :
    ∃ outs p, run newPool reqs = .ok (outs, p) ∧ Interned reqs outs := by
  obtain ⟨hp, he⟩ := newPool_inv
  obtain ⟨outs, p', h1, h2, _, h4, h5⟩ := run_spec reqs newPool hp (by rw [he]; exact h)
  refine ⟨outs, p', h1, h5, ?_⟩
  intro i j hi hj
  have hri : reqs[i]? = some outs[i].2 := by rw [← h5]; simp [hi]
  have hrj : reqs[j]? = some outs[j].2 := by rw [← h5]; simp [hj]
  rw [hri, hrj, List.getElem?_eq_getElem hi, List.getElem?_eq_getElem hj]
  simp only [Option.map_some, Option.some.injEq]
  have mi := h4 (List.getElem_mem hi)
  have mj := h4 (List.getElem_mem hj)
  constructor
  · intro h; rw [h2.addr _ mi _ mj h]
  · intro h
    have : outs[i] = outs[j] := compat.unique h2.inv.distinct mi mj (by simp [sameKey, h])
    rw [this]

/-- non-vacuity: a history with repetitions and prefixes -/
example : NoCollision [ascii "foo", ascii "foobar", ascii "foo", ascii ""] := by
  unfold NoCollision; decide

/-- **C08 is false of the code**: after interning the identifier `sst5lrt`, interning `s` returns
`sst5lrt`. -/
theorem interning_can_return_another_string :
    ∃ outs p, run newPool [ascii "sst5lrt", ascii "s"] = .ok (outs, p) ∧
      outs.map Prod.snd = [ascii "sst5lrt", ascii "sst5lrt"] ∧ ascii "s" ≠ ascii "sst5lrt" := by
  refine ⟨[(0, ascii "sst5lrt"), (0, ascii "sst5lrt")], ?_⟩
  obtain ⟨hp, he⟩ := newPool_inv
  rcases request_cases hp (ascii "sst5lrt") with ⟨x, hx, _⟩ | ⟨x, hx, _⟩ | ⟨_, p', hr, hp', hperm⟩
  · rw [he] at hx; simp at hx
  · rw [he] at hx; simp at hx
  · rw [he] at hperm
    have hmem : ∀ x, x ∈ contents p'.table → x = (0, ascii "sst5lrt") := by
      intro x hx
      have := List.mem_singleton.mp (hperm.subset hx)
      rw [this]; rfl
    refine ⟨p', ?_, rfl, by decide⟩
    rcases request_cases hp' (ascii "s") with ⟨x, hx, _, _, hr2⟩ | ⟨x, hx, _, hcmp, _⟩ | ⟨hno, _⟩
    · rw [hmem x hx] at hr2
      simp only [run, hr, hr2]; rfl
    · rw [hmem x hx] at hcmp
      exact absurd hcmp (by decide)
    · exact absurd (by decide) (hno (0, ascii "sst5lrt") (hperm.symm.subset (by simp; rfl)))

/-- **C08, every collision goes wrong**: whenever a requested string is absent but agrees with a
stored string on the 31 hash bits, the request either returns that other string or calls the
comparison with an argument of the wrong type (undefined behaviour). -/
theorem collision_is_mishandled (reqs : List Str) (h : NoCollision reqs) (x s : Str) (hx : x ∈ reqs)
    (hs : s ≠ x) (hk : key x = key s) :
    ∃ outs p, run newPool reqs = .ok (outs, p) ∧
      (makeStringSized p s = .ub ∨ ∃ h, h.2 = x ∧ makeStringSized p s = .ok (h, p)) := by
  obtain ⟨hp, he⟩ := newPool_inv
  obtain ⟨outs, p', h1, h2, _, h4, h5⟩ := run_spec reqs newPool hp (by rw [he]; exact h)
  refine ⟨outs, p', h1, ?_⟩
  rw [← h5] at hx
  obtain ⟨y, hy, rfl⟩ := List.mem_map.mp hx
  have hy' := h4 hy
  rcases request_cases h2 s with ⟨z, hz, hzk, hcmp, hr⟩ | ⟨z, hz, hzk, hcmp, hr⟩ | ⟨hno, _⟩
  · right
    have : z = y := compat.unique h2.inv.distinct hz hy' (by simp [sameKey, hzk, hk])
    exact ⟨z, by rw [this], hr⟩
  · left; exact hr
  · exact absurd hk (hno y hy')

/-- non-vacuity: two identifiers that agree on 31 hash bits and are not prefixes of each other -/
example : NoCollision [ascii "dsbjm"] ∧ ascii "hraba" ≠ ascii "dsbjm" ∧ key (ascii "dsbjm") = key (ascii "hraba") := by
  refine ⟨?_, by decide, by decide⟩
  intro a ha b hb _
  simp at ha hb; rw [ha, hb]

/-! ## C55: generated names -/

/-- **C55 (partial)**: names generated with prefixes that do not end in a digit are all different:
two calls with different counter values (every call increments the counter) give different names,
whatever the prefixes.  The full statement has no hypothesis on the prefix; see
`generated_names_can_clash`. -/
theorem generated_names_distinct_partial (p q : Str) (m n : Nat) (a b : Str) (hmn : m ≠ n)
    (hp : ∀ x ∈ p.getLast?, isDigitByte x = false) (hq : ∀ x ∈ q.getLast?, isDigitByte x = false)
    (ha : anonymousName (some p) m = .ok a) (hb : anonymousName (some q) n = .ok b) : a ≠ b := by
  unfold anonymousName at ha hb
  simp only at ha hb
  split at ha <;> try contradiction
  split at hb <;> try contradiction
  split at ha <;> try contradiction
  split at hb <;> try contradiction
  cases ha; cases hb
  intro h
  exact hmn (append_decimal_inj hp hq h).2

example : anonymousName (some (ascii "_for")) 7 = .ok (ascii "_for7") := by decide
example : ∀ x ∈ (ascii "_for").getLast?, isDigitByte x = false := by decide

/-- **C55**: with a 64-bit counter and an accepted prefix, a name is always produced within the
buffer, and it starts with the prefix. -/
theorem generated_name_defined (p : Str) (n : Nat) (hp : p.length < 256) (hn : n < 2 ^ 64) :
    ∃ s, anonymousName (some p) n = .ok s ∧ p <+: s ∧ s ≠ p := by
  have hl := decimal_length_le 20 n (by decide) (Nat.lt_of_lt_of_le hn (by decide))
  refine ⟨p ++ decimal n, ?_, List.prefix_append _ _, ?_⟩
  · show (if ¬ p.length < 256 then Built.abort else if (p ++ decimal n).length < 288 then _ else _) = _
    rw [if_neg (by omega), if_pos (by simp; omega)]
  · intro h
    exact decimal_ne_nil n (List.append_right_eq_self.mp h)

/-- **C55 is false in general**: a prefix ending in a digit can produce the name of another call. -/
theorem generated_names_can_clash :
    anonymousName (some (ascii "v1")) 2 = .ok (ascii "v12") ∧
    anonymousName (some (ascii "v")) 12 = .ok (ascii "v12") := by decide

/-! ## C56: concatenation -/

/-- **C56 (partial)**: the concatenation of strings of total length below 256 is the string
interned.  Without the bound it is false, see `concat_overruns_buffer`. -/
theorem concat_correct_partial (s1 : Str) (rest : List Str) (h : (s1 ++ rest.flatten).length < 256) :
    stringConcat s1 rest = .ok (s1 ++ rest.flatten) := by
  unfold stringConcat maxPrefix
  rw [if_neg (by simp at h ⊢; omega)]
  induction rest generalizing s1 with
  | nil => unfold concatLoop bufSize; rw [if_pos (by simp at h; omega)]; simp
  | cons s rest ih =>
    unfold concatLoop maxPrefix bufSize
    simp only [List.flatten_cons, List.length_append] at h
    rw [if_neg (by omega), if_pos (by omega), ih (s1 ++ s) (by simp only [List.length_append]; omega)]
    simp

/-- **C56 is false of the code**: two strings of accepted first length overrun the buffer as soon as
their total length reaches 288. -/
theorem concat_overruns_buffer (s1 s2 : Str) (h1 : s1.length < 256) (h2 : 288 ≤ (s1 ++ s2).length) :
    stringConcat s1 [s2] = .ub := by
  unfold stringConcat maxPrefix
  rw [List.length_append] at h2
  rw [if_neg (by omega)]
  unfold concatLoop maxPrefix bufSize
  rw [if_neg (by omega)]
  split
  · unfold concatLoop bufSize
    rw [if_neg (by simp; omega)]
  · rfl

example : (List.replicate 200 0x61#8).length < 256 ∧
    288 ≤ (List.replicate 200 0x61#8 ++ List.replicate 100 0x62#8).length := by
  simp only [List.length_append, List.length_replicate]; omega

example : stringConcat (ascii "Stack") [ascii "_", ascii "vTable"] = .ok (ascii "Stack_vTable") := by decide

/-! ## C57: joining paths -/

/-- **C57 (partial)**: non-empty components that do not end in a separator are joined by exactly one
separator each, provided the result fits. -/
theorem joinPath_correct_partial (parts : List Str) (hne : ∀ s ∈ parts, s ≠ [] ∧ s.getLast? ≠ some slash)
    (hfit : (List.intercalate [slash] parts).length < 4096) :
    joinPath parts = .ok (List.intercalate [slash] parts) := by
  suffices h : ∀ (parts : List Str) (buf : Str), (∀ s ∈ parts, s ≠ [] ∧ s.getLast? ≠ some slash) →
      (buf ++ List.intercalate [slash] parts).length < 4096 →
      joinLoop buf parts = .ok (buf ++ List.intercalate [slash] parts) by
    simpa [joinPath] using h parts [] hne (by simpa using hfit)
  clear hne hfit parts
  intro parts
  induction parts with
  | nil => intro buf _ h; unfold joinLoop pathMax; rw [if_pos (by simpa using h)]; simp
  | cons s rest ih =>
    intro buf hne hfit
    obtain ⟨hs, hl⟩ := hne s (by simp)
    unfold joinLoop pathMax
    cases rest with
    | nil =>
      simp at hfit
      rw [if_neg hs, if_neg (by omega), if_neg (by simp)]
      unfold joinLoop pathMax
      rw [if_pos (by simp; omega)]
      simp
    | cons r rest =>
      have hi : List.intercalate [slash] (s :: r :: rest) = s ++ [slash] ++ List.intercalate [slash] (r :: rest) := by
        simp [List.intercalate, List.intersperse]
      rw [hi] at hfit ⊢
      simp only [List.length_append] at hfit
      rw [if_neg hs, if_neg (by omega), if_pos ⟨by simp, hl⟩,
        ih _ (fun x hx => hne x (List.mem_cons_of_mem _ hx)) (by simp only [List.length_append]; omega)]
      simp

/-- **C57 is false of the code**: a component of 4095 bytes followed by an empty one passes the length
check and then the terminator is written outside the buffer. -/
theorem joinPath_overruns_buffer (s : Str) (h : s.length = 4095) (hl : s.getLast? ≠ some slash) :
    joinPath [s, []] = .ub := by
  have hs : s ≠ [] := by intro h'; rw [h'] at h; simp at h
  unfold joinPath joinLoop pathMax
  rw [if_neg hs, if_neg (by simp; omega), if_pos ⟨by simp, hl⟩]
  unfold joinLoop joinLoop pathMax
  rw [if_pos rfl, if_neg (by simp; omega)]

example : (List.replicate 4095 0x61#8).length = 4095 ∧ (List.replicate 4095 0x61#8).getLast? ≠ some slash := by
  refine ⟨List.length_replicate, ?_⟩
  rw [List.getLast?_replicate]; decide

example : joinPath [ascii "/usr", ascii "lib", ascii "x.c"] = .ok (ascii "/usr/lib/x.c") := by decide

end Verif.StrPool
