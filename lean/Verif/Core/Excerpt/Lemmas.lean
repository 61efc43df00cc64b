import Verif.Core.Excerpt.Model
namespace Verif.Excerpt

theorem lastNl_some {data : List Nat} : ∀ {n j : Nat}, lastNl data n = some j →
    j < n ∧ data.getD j 0 = 10 ∧ ∀ k, j < k → k < n → data.getD k 0 ≠ 10
  | 0, j, h => by simp [lastNl] at h
  | n + 1, j, h => by
    rw [lastNl] at h
    split at h
    · next h10 =>
      have : n = j := by simpa using h
      subst this
      exact ⟨by omega, h10, fun k h1 h2 => by omega⟩
    · next h10 =>
      obtain ⟨h1, h2, h3⟩ := lastNl_some h
      refine ⟨by omega, h2, fun k hk hkn => ?_⟩
      by_cases e : k = n
      · subst e; exact h10
      · exact h3 k hk (by omega)

theorem lastNl_none {data : List Nat} : ∀ {n : Nat}, lastNl data n = none → ∀ k, k < n → data.getD k 0 ≠ 10
  | 0, _, k, hk => by omega
  | n + 1, h, k, hk => by
    rw [lastNl] at h
    split at h
    · simp at h
    · next h10 =>
      by_cases e : k = n
      · subst e; exact h10
      · exact lastNl_none h k (by omega)

theorem getD_window (f : List Nat) (s r k : Nat) (hk : k < r) : ((f.drop s).take r).getD k 0 = f.getD (s + k) 0 := by
  simp only [List.getD_eq_getElem?_getD]
  rw [List.getElem?_take_of_lt hk, List.getElem?_drop]

theorem lineBegin_spec (f : List Nat) (B : Nat) (hB : B = 0 ∨ f.getD (B - 1) 0 = 10) : ∀ (n off : Nat), off ≤ n → B ≤ off →
    (∀ i, B ≤ i → i < off → f.getD i 0 ≠ 10) → lineBegin f off = B := by
  intro n
  induction n with
  | zero =>
    intro off h1 h2 _
    rw [lineBegin, if_pos (by omega)]; omega
  | succ n ih =>
    intro off h1 h2 h3
    rw [lineBegin]
    split
    · omega
    · next h0 =>
      have hr : 0 < min 64 off := by omega
      have hr2 : min 64 off ≤ off := by omega
      generalize min 64 off = r at hr hr2 ⊢
      split
      · next i hi =>
        obtain ⟨a, b, c⟩ := lastNl_some hi
        rw [getD_window _ _ _ _ a] at b
        have hlt : ¬ B ≤ off - r + i := fun hh => h3 _ hh (by omega) b
        rcases hB with hB | hB
        · omega
        · by_cases e : B = off - r + i + 1
          · exact e.symm
          · exfalso
            have := c (B - 1 - (off - r)) (by omega) (by omega)
            rw [getD_window _ _ _ _ (by omega)] at this
            apply this
            rw [← hB]; congr 1; omega
      · next hi =>
        have c := lastNl_none hi
        by_cases hle : B ≤ off - r
        · exact ih _ (by omega) hle fun i hi1 hi2 => h3 i hi1 (by omega)
        · exfalso
          rcases hB with hB | hB
          · omega
          · have := c (B - 1 - (off - r)) (by omega)
            rw [getD_window _ _ _ _ (by omega)] at this
            apply this
            rw [← hB]; congr 1; omega

theorem lineEnd_spec : ∀ (n : Nat) (f : List Nat) (off : Nat) (x rest : List Nat), x.length ≤ n → f.drop off = x ++ rest →
    10 ∉ x → (rest = [] ∨ ∃ q, rest = 10 :: q) → lineEnd f off = off + x.length := by
  intro n
  induction n using Nat.strongRecOn with
  | _ n ih =>
    intro f off x rest hn hf hx hr
    rw [lineEnd, hf]
    have hfind : ∀ l : List Nat, 10 ∉ l → l.findIdx? (fun b => b == 10) = none := by
      intro l hl
      rw [List.findIdx?_eq_none_iff]
      intro b hb
      simp only [beq_eq_false_iff_ne]
      exact fun e => hl (e ▸ hb)
    by_cases hlt : x.length < 64
    · rcases hr with hr | ⟨q, hr⟩
      · subst hr
        rw [List.append_nil, List.take_of_length_le (by omega), hfind x hx]
        simp [hlt]
      · subst hr
        rw [List.take_append, List.take_of_length_le (by omega)]
        obtain ⟨m, hm⟩ : ∃ m, 64 - x.length = m + 1 := ⟨63 - x.length, by omega⟩
        rw [hm, List.take_succ_cons, List.findIdx?_append, hfind x hx]
        simp [List.findIdx?_cons]
    · rw [List.take_append_of_le_length (by omega), hfind _ (fun h => hx (List.mem_of_mem_take h))]
      have hl : (x.take 64).length = 64 := by simp; omega
      simp only [hl, Nat.lt_irrefl, if_false]
      have hd : f.drop (off + 64) = x.drop 64 ++ rest := by
        rw [← List.drop_drop, hf, List.drop_append_of_le_length (by omega)]
      rw [ih (x.drop 64).length (by simp; omega) f (off + 64) (x.drop 64) rest (Nat.le_refl _) hd
        (fun h => hx (List.mem_of_mem_drop h)) hr]
      simp; omega

theorem piece_long : ∀ (n : Nat) (x rest : List Nat), 10 ∉ x → n ≤ x.length → piece n (x ++ rest) = x.take n
  | 0, _, _, _, _ => by simp [piece]
  | n + 1, [], _, _, h => by simp at h
  | n + 1, b :: x, rest, hx, h => by
    simp only [List.mem_cons, not_or] at hx
    simp only [List.cons_append, piece, if_neg (fun e : b = 10 => hx.1 e.symm), List.take_succ_cons]
    rw [piece_long n x rest hx.2 (by simpa using h)]

theorem piece_end : ∀ (n : Nat) (x : List Nat), 10 ∉ x → x.length ≤ n → piece n x = x
  | 0, x, _, h => by
    have : x = [] := by simpa using h
    subst this; rfl
  | n + 1, [], _, h => rfl
  | n + 1, b :: x, hx, h => by
    simp only [List.mem_cons, not_or] at hx
    simp only [piece, if_neg (fun e : b = 10 => hx.1 e.symm)]
    rw [piece_end n x hx.2 (by simpa using h)]

theorem piece_nl : ∀ (n : Nat) (x q : List Nat), 10 ∉ x → x.length < n → piece n (x ++ 10 :: q) = x ++ [10]
  | 0, x, _, _, h => by omega
  | n + 1, [], q, _, h => by simp [piece]
  | n + 1, b :: x, q, hx, h => by
    simp only [List.mem_cons, not_or] at hx
    simp only [List.cons_append, piece, if_neg (fun e : b = 10 => hx.1 e.symm)]
    rw [piece_nl n x q hx.2 (by simpa using h)]

theorem takeWhile_all {α : Type} (p : α → Bool) : ∀ l : List α, (∀ a ∈ l, p a = true) → l.takeWhile p = l
  | [], _ => rfl
  | a :: l, h => by
    rw [List.takeWhile_cons, h a (by simp), if_pos rfl, takeWhile_all p l (fun b hb => h b (by simp [hb]))]

theorem takeWhile_stop (x q : List Nat) (hx : 10 ∉ x) : (x ++ 10 :: q).takeWhile (fun c => c != 10) = x := by
  induction x with
  | nil => simp
  | cons b x ih =>
    simp only [List.mem_cons, not_or] at hx
    have : (b != 10) = true := by simpa using fun e : b = 10 => hx.1 e.symm
    rw [List.cons_append, List.takeWhile_cons, this, if_pos rfl, ih hx.2]

theorem fileLine_spec : ∀ (n : Nat) (x rest : List Nat), x.length ≤ n → 10 ∉ x → 0 ∉ x →
    (rest = [] ∨ ∃ q, rest = 10 :: q) → fileLine (x ++ rest) = x ++ [10] := by
  intro n
  induction n using Nat.strongRecOn with
  | _ n ih =>
    intro x rest hn hx hz hr
    have hne : ∀ l : List Nat, 0 ∉ l → l.takeWhile (fun c => c != 0) = l := fun l hl =>
      takeWhile_all _ l fun a ha => by simpa using fun e : a = 0 => hl (e ▸ ha)
    cases hxr : x ++ rest with
    | nil =>
      have : x = [] := by simp at hxr; exact hxr.1
      subst this
      rw [fileLine]; rfl
    | cons b bs =>
      rw [fileLine, ← hxr]
      by_cases h63 : 63 ≤ x.length
      · rw [piece_long 63 x rest hx h63]
        have hz' : 0 ∉ x.take 63 := fun h => hz (List.mem_of_mem_take h)
        have hx' : 10 ∉ x.take 63 := fun h => hx (List.mem_of_mem_take h)
        simp only [hne _ hz', hx', if_false]
        have hl : (x.take 63).length = 63 := by simp; omega
        rw [hl, List.drop_append_of_le_length h63,
          ih (x.drop 63).length (by simp; omega) (x.drop 63) rest (Nat.le_refl _)
            (fun h => hx (List.mem_of_mem_drop h)) (fun h => hz (List.mem_of_mem_drop h)) hr]
        rw [← List.append_assoc, List.take_append_drop]
      · rcases hr with hr | ⟨q, hr⟩
        · subst hr
          rw [List.append_nil, piece_end 63 x hx (by omega)]
          simp only [hne x hz, hx, if_false]
          rw [List.drop_of_length_le (Nat.le_refl _), fileLine]
        · subst hr
          rw [piece_nl 63 x q hx (by omega)]
          have hz' : 0 ∉ x ++ [10] := by simp [hz]
          have hm : 10 ∈ x ++ [10] := by simp
          simp only [hne _ hz', hm, if_true]
          rw [takeWhile_stop x [] hx]

theorem blanks_eq (n : Nat) : blanks n = List.replicate n 32 := by
  unfold blanks
  split
  · next h =>
    have : ([32, 32, 32, 32] : List Nat) = List.replicate 4 32 := rfl
    rw [this, List.replicate_append_replicate]
    congr 1; omega
  · rfl

theorem dec_length (n : Nat) : (dec n).length = countDigits n := by
  induction n using Nat.strongRecOn with
  | _ n ih =>
    rw [dec, countDigits]
    split
    · rfl
    · rw [List.length_append, ih (n / 10) (by omega)]; rfl

theorem countDigits_mono (m : Nat) : ∀ n, n ≤ m → countDigits n ≤ countDigits m := by
  induction m using Nat.strongRecOn with
  | _ m ih =>
    intro n h
    rw [countDigits.eq_def n, countDigits.eq_def m]
    split <;> split
    · exact Nat.le_refl _
    · omega
    · omega
    · have := ih (m / 10) (by omega) (n / 10) (Nat.div_le_div_right h)
      omega

theorem countDigits_le (n : Nat) : countDigits n ≤ n + 1 := by
  induction n using Nat.strongRecOn with
  | _ n ih =>
    rw [countDigits]
    split
    · omega
    · have := ih (n / 10) (by omega)
      omega

theorem sub64_eq (a b : Nat) (h : b ≤ a) (ha : a < 2 ^ 64) : sub64 a b = a - b := by
  unfold sub64; omega

end Verif.Excerpt
