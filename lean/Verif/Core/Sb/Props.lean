import Verif.Core.Sb.Model
import Verif.Core.Text.Props
/-! # C13: the string builder holds the concatenation of what was appended -/
namespace Verif.Sb

/-! ## Specification -/

/-- The buffer holds this C string: its bytes, then a NUL. -/
def HoldsCString (mem : Nat → Option Nat) (s : List Nat) : Prop :=
  (∀ i, i < s.length → mem i = s[i]?) ∧ mem s.length = some 0

/-- Invariant: `n` bytes written, equal to `s`. -/
structure Holds (sb : Builder) (s : List Nat) : Prop where
  size : sb.size = s.length
  cap : sb.size ≤ sb.capacity
  room : sb.room = some (sb.capacity + 1)
  bytes : ∀ i, i < s.length → sb.mem i = s[i]?

theorem doubleUntil_spec (need : Nat) : ∀ (f cap : Nat), 0 < cap → need ≤ cap + f →
    ∃ c, doubleUntil need (f + 1) cap = .ok c ∧ need ≤ c ∧ cap ≤ c := by
  intro f
  induction f with
  | zero =>
    intro cap _ h
    exact ⟨cap, by unfold doubleUntil; rw [if_neg (by omega)], by omega, Nat.le_refl _⟩
  | succ f ih =>
    intro cap hc h
    unfold doubleUntil
    split
    · obtain ⟨c, h1, h2, h3⟩ := ih (cap * 2) (by omega) (by omega)
      exact ⟨c, h1, h2, by omega⟩
    · exact ⟨cap, rfl, by omega, Nat.le_refl _⟩

theorem append_spec {sb : Builder} {t : List Nat} (h : Holds sb t) (hc : 0 < sb.capacity) (s : List Nat) :
    ∃ sb', append sb s = .ok sb' ∧ Holds sb' (t ++ s) ∧ 0 < sb'.capacity ∧ sb'.mem (t ++ s).length = some 0 := by
  have hg : ∃ sb1, grow sb s.length = .ok sb1 ∧ Holds sb1 t ∧ sb.size + s.length ≤ sb1.capacity ∧ 0 < sb1.capacity := by
    unfold grow
    rw [h.room]
    simp only
    split
    · obtain ⟨c, h1, h2, h3⟩ := doubleUntil_spec (sb.size + s.length) (sb.size + s.length) sb.capacity hc (by omega)
      rw [h1]
      exact ⟨_, rfl, ⟨h.size, Nat.le_trans h.cap h3, rfl, h.bytes⟩, h2, by show 0 < c; omega⟩
    · have := h.cap
      exact ⟨sb, rfl, h, by omega, hc⟩
  obtain ⟨sb1, h1, h2, h3, h4⟩ := hg
  have hs1 : sb1.size = t.length := h2.size
  have hss : sb1.size = sb.size := by rw [hs1, h.size]
  have happ : append sb s = .ok { sb1 with
      mem := upd (fun i => if sb1.size ≤ i ∧ i < sb1.size + s.length then s[i - sb1.size]? else sb1.mem i)
            (sb1.size + s.length) (some 0)
      size := sb1.size + s.length } := by
    unfold append
    rw [h1]
    simp only [Res.bind_ok, h2.room]
    rw [if_pos (by omega)]
  refine ⟨_, happ, ⟨?_, ?_, h2.room, ?_⟩, h4, ?_⟩
  · simp [hs1]
  · show sb1.size + s.length ≤ sb1.capacity; omega
  · intro i hi
    rw [List.length_append] at hi
    simp only
    rw [upd_ne _ _ (by omega)]
    rw [List.getElem?_append]
    by_cases hlt : i < t.length
    · rw [if_neg (by omega), if_pos hlt]; exact h2.bytes i hlt
    · rw [if_pos (by omega), if_neg hlt, hs1]
  · simp only [List.length_append, hs1, upd_same]

/-- bytes of a list of pieces -/
def allBytes : List Piece → Option (List Nat)
  | [] => some []
  | p :: ps =>
    match p.bytes, allBytes ps with
    | some a, some b => some (a ++ b)
    | _, _ => none

theorem appendAll_spec : ∀ (ps : List Piece) (sb : Builder) (t b : List Nat), Holds sb t → 0 < sb.capacity →
    allBytes ps = some b → ∃ sb', Res.foldl appendPiece sb ps = .ok sb' ∧ Holds sb' (t ++ b) ∧
      (sb'.mem (t ++ b).length = some 0 ∨ ps = []) := by
  intro ps
  induction ps with
  | nil =>
    intro sb t b h _ hb
    simp [allBytes] at hb; subst hb
    exact ⟨sb, rfl, by simpa using h, .inr rfl⟩
  | cons p ps ih =>
    intro sb t b h hc hb
    unfold allBytes at hb
    cases hp : p.bytes with
    | none => simp [hp] at hb
    | some a =>
      cases hq : allBytes ps with
      | none => simp [hp, hq] at hb
      | some b' =>
        simp [hp, hq] at hb
        subst hb
        obtain ⟨sb1, h1, h2, h3, h4⟩ := append_spec h hc a
        obtain ⟨sb2, h5, h6, h7⟩ := ih sb1 (t ++ a) b' h2 h3 hq
        refine ⟨sb2, ?_, by simpa using h6, .inl ?_⟩
        · simp only [Res.foldl, appendPiece, hp, h1, Res.bind_ok]
          exact h5
        · rcases h7 with h7 | h7
          · simpa using h7
          · subst h7
            simp [allBytes] at hq; subst hq
            simp [Res.foldl] at h5; subst h5
            simpa using h4

/-! ## What each piece stands for -/

/-- `b` is the decimal numeral of `n`: digits only, no leading zero, value `n`. -/
def IsNumeral (n : Nat) (b : List Nat) : Prop :=
  b ≠ [] ∧ (∀ d ∈ b, 48 ≤ d ∧ d ≤ 57) ∧ b.foldl (fun a d => a * 10 + (d - 48)) 0 = n ∧ (b.head? = some 48 → b = [48])

/-- What appending a piece is to add. -/
def Means : Piece → List Nat → Prop
  | .str s, b => b = s
  | .char c, b => ∃ ch : Char, ch.toNat = c ∧ b = (String.utf8EncodeChar ch).map UInt8.toNat
  | .uint n, b => IsNumeral n b
  | .int z, b => if z < 0 then ∃ d, b = '-'.toNat :: d ∧ IsNumeral (-z).toNat d else IsNumeral z.toNat b
  | .bool v, b => b = (if v then "true" else "false").toList.map Char.toNat

theorem decimal_head (n : Nat) : (decimal n).head? = some 48#8 → decimal n = [48#8] := by
  induction n using decimal_induction with
  | h1 n h =>
    rw [decimal_eq, if_pos h]
    intro e
    simp at e
    rw [e]
  | h2 n h ih =>
    rw [decimal_eq, if_neg h]
    intro e
    have hne := decimal_ne_nil (n / 10)
    rw [show (decimal (n / 10) ++ [digitByte n]).head? = (decimal (n / 10)).head? by
      cases hc : decimal (n / 10) with
      | nil => exact absurd hc hne
      | cons => rfl] at e
    have h48 := ih e
    have hv := decimalValue_decimal (n / 10)
    rw [h48] at hv
    simp [decimalValue] at hv
    omega

theorem digits_numeral (n : Nat) : IsNumeral n (digits n) := by
  unfold digits
  refine ⟨by simp [decimal_ne_nil], ?_, ?_, ?_⟩
  · intro d hd
    obtain ⟨b, hb, rfl⟩ := List.mem_map.mp hd
    have := decimal_digits n b hb
    simp only [isDigitByte, Bool.and_eq_true, decide_eq_true_eq] at this
    exact this
  · rw [List.foldl_map]
    exact decimalValue_decimal n
  · intro h
    rw [List.head?_map] at h
    cases hd : (decimal n).head? with
    | none => rw [hd] at h; simp at h
    | some x =>
      rw [hd] at h
      simp only [Option.map_some, Option.some.injEq] at h
      have hx : x = 48#8 := by apply BitVec.eq_of_toNat_eq; rw [h]; rfl
      rw [hx] at hd
      rw [decimal_head n hd]
      rfl

/-- A character piece holds a Unicode character. -/
def Piece.Valid : Piece → Prop
  | .char c => ∃ ch : Char, ch.toNat = c
  | _ => True

theorem bytes_means (p : Piece) (h : p.Valid) : ∃ b, p.bytes = some b ∧ Means p b := by
  cases p with
  | str s => exact ⟨s, rfl, rfl⟩
  | char c =>
    obtain ⟨ch, rfl⟩ := h
    exact ⟨_, Text.builder_writes_utf8 ch, ch, rfl, rfl⟩
  | uint n => exact ⟨_, rfl, digits_numeral n⟩
  | int z =>
    refine ⟨_, rfl, ?_⟩
    show if z < 0 then _ else _
    by_cases hz : z < 0
    · rw [if_pos hz, if_pos hz, show z.natAbs = (-z).toNat by omega]
      exact ⟨_, rfl, digits_numeral _⟩
    · rw [if_neg hz, if_neg hz, show z.natAbs = z.toNat by omega]
      exact digits_numeral _
  | bool v => cases v <;> exact ⟨_, rfl, by unfold Means; decide⟩

/-- The pieces one after the other. -/
inductive Concat : List Piece → List Nat → Prop
  | nil : Concat [] []
  | cons {p ps a b} : Means p a → Concat ps b → Concat (p :: ps) (a ++ b)

theorem allBytes_concat : ∀ ps : List Piece, (∀ p ∈ ps, p.Valid) → ∃ b, allBytes ps = some b ∧ Concat ps b
  | [], _ => ⟨[], rfl, .nil⟩
  | p :: ps, h => by
    obtain ⟨a, h1, h2⟩ := bytes_means p (h p (List.mem_cons_self ..))
    obtain ⟨b, h3, h4⟩ := allBytes_concat ps fun q hq => h q (List.mem_cons_of_mem _ hq)
    exact ⟨a ++ b, by simp [allBytes, h1, h3], .cons h2 h4⟩

/-- **C13 (partial)**: on a new builder, any non-empty sequence of appends (strings, characters,
integers, booleans) stays in bounds and releases a C string that is the concatenation of what the pieces stand for.
Missing: the empty sequence, see `released_without_append_unterminated`. -/
theorem release_is_concat_partial (ps : List Piece) (hne : ps ≠ []) (hv : ∀ p ∈ ps, p.Valid) :
    ∃ sb b, Res.foldl appendPiece new ps = .ok sb ∧ Concat ps b ∧ HoldsCString (release sb).1 b := by
  obtain ⟨b, hb, hcat⟩ := allBytes_concat ps hv
  obtain ⟨sb, h1, h2, h3⟩ := appendAll_spec ps new [] b ⟨rfl, by decide, rfl, by simp⟩ (by decide) hb
  refine ⟨sb, b, h1, hcat, ?_, ?_⟩
  · simpa [release] using h2.bytes
  · rcases h3 with h3 | h3
    · simpa [release] using h3
    · exact absurd h3 hne

/-- non-vacuity: text, a euro sign, negative and large numbers -/
example : allBytes [.str [104, 105], .char 0x20AC, .int (-12), .bool true, .uint 18446744073709551615] =
    some ([104, 105, 0xE2, 0x82, 0xAC, 45, 49, 50, 116, 114, 117, 101] ++
      [49, 56, 52, 52, 54, 55, 52, 52, 48, 55, 51, 55, 48, 57, 53, 53, 49, 54, 49, 53]) := by decide

/-- **C13 is false of the code (a)**: a builder released before anything was appended gives a buffer
whose first byte was never written, so it is not a C string. -/
theorem released_without_append_unterminated : (release new).1 0 = none := rfl

/-- **C13 is false of the code (b)**: on a builder that was released (or is zero-initialised),
appending an empty piece and then anything else never returns: the capacity is zero and doubling it
leaves it zero, for any number of rounds. -/
theorem append_after_empty_diverges (s : List Nat) (hs : s ≠ []) :
    (∃ sb, append zeroed [] = .ok sb ∧ append sb s = .diverge) ∧
      ∀ rounds, doubleUntil s.length rounds 0 = .diverge := by
  have hd : ∀ rounds, doubleUntil s.length rounds 0 = .diverge := by
    intro r
    induction r with
    | zero => rfl
    | succ r ih =>
      unfold doubleUntil
      rw [if_pos (List.length_pos_iff.mpr hs)]
      exact ih
  refine ⟨⟨_, rfl, ?_⟩, hd⟩
  unfold append grow
  simp only
  rw [if_pos (by show s.length > 0; exact List.length_pos_iff.mpr hs)]
  show Res.bind (Res.map _ (doubleUntil (0 + s.length) (0 + s.length + 1) 0)) _ = _
  rw [Nat.zero_add, hd]
  rfl

/-- **C13 (partial)**: reusing a released builder works when the first piece is not empty. -/
theorem reuse_after_release_partial (s : List Nat) (ps : List Piece) (hs : s ≠ []) (hv : ∀ p ∈ ps, p.Valid) :
    ∃ sb b, Res.foldl appendPiece zeroed (.str s :: ps) = .ok sb ∧ Concat ps b ∧ HoldsCString (release sb).1 (s ++ b) := by
  obtain ⟨b, hb, hcat⟩ := allBytes_concat ps hv
  have hpos := List.length_pos_iff.mpr hs
  have h0 : append zeroed s = .ok ⟨s.length, s.length, some (s.length + 1),
      upd (fun i => if 0 ≤ i ∧ i < s.length then s[i]? else none) s.length (some 0)⟩ := by
    unfold append grow zeroed
    simp
  obtain ⟨sb, h1, h2, h3⟩ := appendAll_spec ps _ s b
    (⟨rfl, Nat.le_refl _, rfl, by intro i hi; simp only; rw [upd_ne _ _ (by omega), if_pos (by omega)]⟩ :
      Holds ⟨s.length, s.length, some (s.length + 1),
        upd (fun i => if 0 ≤ i ∧ i < s.length then s[i]? else none) s.length (some 0)⟩ s) hpos hb
  refine ⟨sb, b, ?_, hcat, h2.bytes, ?_⟩
  · simp only [Res.foldl, appendPiece, Piece.bytes, h0, Res.bind_ok]
    exact h1
  · rcases h3 with h3 | h3
    · exact h3
    · subst h3
      simp [Res.foldl] at h1
      simp [allBytes] at hb
      subst hb
      rw [← h1]
      simp [release]

end Verif.Sb
