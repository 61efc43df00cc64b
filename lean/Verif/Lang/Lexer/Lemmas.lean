import Verif.Lang.Lexer.Model
/-! # Lemmas about the lexer model -/
namespace Verif.Lexer

def posAfter (p : Pos) (bs : List Nat) : Pos := bs.foldl stepPos p

/-- `l'` is `l` after reading bytes that all satisfy `P`. -/
def Adv (P : Nat → Prop) (l l' : L) : Prop :=
  ∃ bs, (∀ b ∈ bs, P b) ∧ l.rest = bs ++ l'.rest ∧ l'.pos = posAfter l.pos bs

abbrev All : Nat → Prop := fun _ => True

theorem posAfter_append (p : Pos) (a b : List Nat) : posAfter p (a ++ b) = posAfter (posAfter p a) b :=
  List.foldl_append ..

theorem stepPos_off (p : Pos) (c : Nat) : (stepPos p c).off = p.off + 1 := by
  unfold stepPos; split <;> rfl

theorem posAfter_off (bs : List Nat) : ∀ p, (posAfter p bs).off = p.off + bs.length := by
  induction bs with
  | nil => intro p; rfl
  | cons c bs ih => intro p; rw [show posAfter p (c :: bs) = posAfter (stepPos p c) bs from rfl, ih, stepPos_off]; simp; omega

namespace Adv
variable {P : Nat → Prop} {l l1 l2 : L}

theorem refl (l : L) : Adv P l l := ⟨[], by simp, rfl, rfl⟩

theorem trans (h : Adv P l l1) (h' : Adv P l1 l2) : Adv P l l2 := by
  obtain ⟨a, pa, ha, ha'⟩ := h
  obtain ⟨b, pb, hb, hb'⟩ := h'
  refine ⟨a ++ b, ?_, ?_, ?_⟩
  · intro x hx; rcases List.mem_append.mp hx with h | h
    · exact pa x h
    · exact pb x h
  · rw [ha, hb, List.append_assoc]
  · rw [hb', ha', posAfter_append]

theorem mono {Q : Nat → Prop} (hq : ∀ b, P b → Q b) (h : Adv P l l1) : Adv Q l l1 := by
  obtain ⟨a, pa, ha, ha'⟩ := h
  exact ⟨a, fun b hb => hq b (pa b hb), ha, ha'⟩

theorem all (h : Adv P l l1) : Adv All l l1 := h.mono fun _ _ => trivial

theorem le (h : Adv P l l1) : l1.rest.length ≤ l.rest.length := by
  obtain ⟨a, _, ha, _⟩ := h
  rw [ha]; simp

theorem off (h : Adv P l l1) : l1.pos.off + l1.rest.length = l.pos.off + l.rest.length := by
  obtain ⟨a, _, ha, hp⟩ := h
  rw [ha, hp, posAfter_off]; simp; omega

/-- flags are not part of the relation -/
theorem setL (fl : Flags) (h : Adv P l l1) : Adv P { l with fl := fl } l1 := h
theorem setR (fl : Flags) (h : Adv P l l1) : Adv P l { l1 with fl := fl } := h
theorem ofL {fl : Flags} (h : Adv P { l with fl := fl } l1) : Adv P l l1 := h

end Adv

theorem adv_flags (P : Nat → Prop) (l : L) (fl : Flags) : Adv P l { l with fl := fl } := ⟨[], by simp, rfl, rfl⟩

theorem skip_cons {l : L} {c : Nat} {r : List Nat} (h : l.rest = c :: r) :
    skipChar l = ⟨r, stepPos l.pos c, l.fl⟩ := by
  simp [skipChar, cur, h]

theorem skip_adv {P : Nat → Prop} {l : L} (h : l.rest ≠ []) (hp : P (cur l)) : Adv P l (skipChar l) := by
  cases hr : l.rest with
  | nil => exact absurd hr h
  | cons c r =>
    rw [skip_cons hr]
    refine ⟨[c], ?_, by simp [hr], rfl⟩
    simp [cur, hr] at hp
    simpa using hp

theorem skip_length {l : L} (h : l.rest ≠ []) : (skipChar l).rest.length + 1 = l.rest.length := by
  cases hr : l.rest with
  | nil => exact absurd hr h
  | cons c r => rw [skip_cons hr]; simp

@[simp] theorem skip_fl (l : L) : (skipChar l).fl = l.fl := rfl

theorem accepts_ne {l : L} {c : Nat} (h : accepts l c = true) : l.rest ≠ [] := by
  intro hr; simp [accepts, isEof, hr] at h

theorem accepts_cur {l : L} {c : Nat} (h : accepts l c = true) : cur l = c := by
  simp [accepts] at h; exact h.2

theorem cur_ne {l : L} {c : Nat} (h : cur l = c) (hc : c ≠ 255) : l.rest ≠ [] := by
  intro hr; simp [cur, hr] at h; omega

theorem isEof_iff {l : L} : isEof l = true ↔ l.rest = [] := by simp [isEof]

theorem skipWhileAux_adv (p : Nat → Bool) (fl : Flags) :
    ∀ (r : List Nat) (pos : Pos) (fl0 : Flags),
      Adv (fun b => p b = true) ⟨r, pos, fl0⟩ (skipWhileAux p fl r pos) ∧ (skipWhileAux p fl r pos).fl = fl := by
  intro r
  induction r with
  | nil => intro pos fl0; exact ⟨⟨[], by simp, rfl, rfl⟩, rfl⟩
  | cons c r ih =>
    intro pos fl0
    unfold skipWhileAux
    by_cases h : p c = true
    · rw [if_pos h]
      refine ⟨Adv.trans (l1 := ⟨r, stepPos pos c, fl0⟩) ⟨[c], by simpa using h, rfl, rfl⟩ (ih _ _).1, (ih (stepPos pos c) fl0).2⟩
    · rw [if_neg h]; exact ⟨⟨[], by simp, rfl, rfl⟩, rfl⟩

theorem skipWhile_adv (p : Nat → Bool) (l : L) : Adv (fun b => p b = true) l (skipWhile p l) :=
  (skipWhileAux_adv p l.fl l.rest l.pos l.fl).1

@[simp] theorem skipWhile_fl (p : Nat → Bool) (l : L) : (skipWhile p l).fl = l.fl :=
  (skipWhileAux_adv p l.fl l.rest l.pos l.fl).2

/-- After a skip loop the current byte does not satisfy the predicate (or the text is read). -/
theorem skipWhile_stop (p : Nat → Bool) (l : L) : (skipWhile p l).rest = [] ∨ p (cur (skipWhile p l)) = false := by
  unfold skipWhile
  generalize l.rest = r, l.pos = q
  induction r generalizing q with
  | nil => left; rfl
  | cons c r ih =>
    unfold skipWhileAux
    by_cases h : p c = true
    · rw [if_pos h]; exact ih _
    · rw [if_neg h]; right; simpa [cur] using h

theorem skipWhile_self (p : Nat → Bool) (l : L) (h : l.rest = [] ∨ p (cur l) = false) : skipWhile p l = l := by
  obtain ⟨r, q, fl⟩ := l
  cases r with
  | nil => rfl
  | cons c r =>
    simp [cur] at h
    simp [skipWhile, skipWhileAux, h]

/-! ### Chains -/

mutual
theorem Chain.run_adv : ∀ (ch : Chain) (l : L), Adv All l (ch.run l).1 ∧ (ch.run l).1.fl = l.fl
  | .node alts dflt, l => by
    unfold Chain.run
    cases h : Chain.runAlts alts l with
    | none => exact ⟨Adv.refl _, rfl⟩
    | some r =>
      obtain ⟨h1, h2, _⟩ := Chain.runAlts_adv alts l r h
      exact ⟨h1, h2⟩
theorem Chain.runAlts_adv : ∀ (alts : List (Nat × Chain)) (l : L) (r : L × Sym), Chain.runAlts alts l = some r →
    Adv All l r.1 ∧ r.1.fl = l.fl ∧ r.1.rest.length < l.rest.length
  | [], l, r, h => by simp [Chain.runAlts] at h
  | (c, ch) :: alts, l, r, h => by
    unfold Chain.runAlts at h
    by_cases ha : accepts l c = true
    · rw [if_pos ha] at h
      cases h
      obtain ⟨h1, h2⟩ := Chain.run_adv ch (skipChar l)
      have hne := accepts_ne ha
      refine ⟨Adv.trans (skip_adv hne trivial) h1, by rw [h2, skip_fl], ?_⟩
      have := h1.le
      have := skip_length hne
      omega
    · rw [if_neg ha] at h
      exact Chain.runAlts_adv alts l r h
end

end Verif.Lexer
