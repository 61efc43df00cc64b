import Verif.Std.FileServer.Serve
/-! # Requests for a part of a file (C115)

Source: /repo/src/cxy/stdlib/fserver.cxy 324-396. -/
namespace Verif.FileServer

open Verif.Http (View lift str number lift_ok)

/-! ## Specification -/

/-- The header of a request for the bytes from `a` to `b` inclusive (RFC 9110, 14.1.2). -/
def rangeHeader (a b : Nat) : List Nat := str "bytes=" ++ number a ++ 45 :: number b

/-- The reply that it asks for, for a file that has these bytes. -/
def rangeReply (data : List Nat) (a b : Nat) : Reply := ⟨206, some ((data.drop a).take (b + 1 - a)), some (a, b, data.length)⟩

/-! ## Parsing -/

theorem number_ne_nil (n : Nat) : number n ≠ [] := by
  unfold number
  rw [decimal_eq]
  split <;> simp

theorem strtoll_bytes (r : List Nat) : Http.strtoll (str "bytes=" ++ r) = .ok 0 := by
  have h : str "bytes=" = 98 :: str "ytes=" := by decide
  have hd : Http.digitOf 98 = 11 := by decide
  have hsp : Str.isSpace 98 = false := by decide
  unfold Http.strtoll
  rw [h, List.cons_append, List.dropWhile_cons, hsp]
  simp only [Bool.false_eq_true, if_false]
  have : Http.readNumber (98 :: (str "ytes=" ++ r)) = .ok 0 := by
    unfold Http.readNumber
    split
    · rename_i heq; cases heq
    · rename_i heq; cases heq
    · unfold Http.readDigits
      simp [List.dropWhile, List.takeWhile, hd]
  rw [this]
  rfl

theorem strtoll_zero (c : Nat) (r : List Nat) (hc : ¬ (48 ≤ c ∧ c ≤ 57)) (hx : c ≠ 120 ∧ c ≠ 88) :
    Http.strtoll (48 :: c :: r) = .ok 0 := by
  have h0 : Http.digitOf 48 = 0 := by decide
  have hc8 : ¬ Http.digitOf c < 8 := by
    intro h
    exact hc ((Http.digitOf_ten c).1 (by omega))
  have hread : Http.readNumber (48 :: c :: r) = .ok 0 := by
    have hd : Http.readDigits 8 (48 :: c :: r) = .ok 0 := by
      unfold Http.readDigits
      simp [List.dropWhile, List.takeWhile, h0, hc8]
    cases r with
    | nil => rw [Http.readNumber]; exact hd; simp
    | cons h r =>
      rw [Http.readNumber, if_neg (by omega)]
      exact hd
  unfold Http.strtoll
  rw [show List.dropWhile Str.isSpace (48 :: c :: r) = 48 :: c :: r from rfl]
  simp only [hread, Out.bind_ok]
  rfl

/-- A number that is followed by something else is read. -/
theorem strtoll_any (n : Nat) (h : n < 2 ^ 63) (c : Nat) (r : List Nat) (hc : ¬ (48 ≤ c ∧ c ≤ 57)) (hx : c ≠ 120 ∧ c ≠ 88) :
    Http.strtoll (number n ++ c :: r) = .ok (n : Int) := by
  by_cases h0 : n = 0
  · subst h0
    have : number 0 = [48] := by decide
    rw [this]
    exact strtoll_zero c r hc hx
  · rw [Http.strtoll_number n (by omega) c r hc, Nat.min_eq_left (by omega)]

theorem no_dash (n : Nat) : 45 ∉ number n ∧ 44 ∉ number n ∧ 32 ∉ number n := by
  refine ⟨?_, ?_, ?_⟩ <;>
  · intro h
    have := Http.number_digits n _ h
    omega

theorem toU64_nat (n : Nat) (h : n < 2 ^ 64) : toU64 (n : Int) = n := by
  unfold toU64
  rw [← Int.natCast_emod, Int.toNat_natCast, Nat.mod_eq_of_lt h]

/-- One turn of the loop for `pre-b`. -/
theorem loop_first (len fuel i : Nat) (pre : List Nat) (a b : Nat) (hpre : 45 ∉ pre) (hi : i < (pre ++ 45 :: number b).length)
    (hlen : (pre ++ 45 :: number b).length < 2 ^ 63) (hb : b ≤ len) (hl : len < 2 ^ 63)
    (hstart : Http.strtoll (pre ++ 45 :: number b ++ [0]) = .ok (a : Int)) (hab : a ≤ b) (ha : a < len) (rs : List (Int × Int)) :
    rangeLoop len (fuel + 1) ⟨pre ++ 45 :: number b, [0]⟩ i rs = rangeLoop len fuel ⟨number b, [0]⟩ pre.length (rs ++ [((a : Int), (b : Int))]) := by
  have hsub : (View.mk (pre ++ 45 :: number b) [0]).sub (pre.length + 1) (-1) = .ok ⟨number b, [0]⟩ := by
    have := Http.sub_tail (pre ++ [45]) (number b) [0] (pre.length + 1) (by simp)
    simpa using this
  have hnum : (number b).length < 2 ^ 63 := by simp only [List.length_append, List.length_cons] at hlen; omega
  rw [rangeLoop, if_pos hi]
  simp only
  rw [hstart, Out.bind_ok, Http.index_found pre (number b) 45 hpre hlen, lift_ok, Out.bind_ok]
  simp only
  rw [hsub, Out.bind_ok, strtoll_any b (by omega) 0 [] (by omega) (by omega), Out.bind_ok]
  simp only [Out.bind_ok]
  rw [if_neg (by
      rw [toU64_nat a (by omega), toU64_nat b (by omega)]
      omega),
    Http.index_missing _ 44 (no_dash b).2.1 hnum, lift_ok, Out.bind_ok]

/-- The loop without a dash: it pushes for ever. -/
theorem loop_forever (len b : Nat) (hb : b < len) (hl : len < 2 ^ 63) (hn : (number b).length < 2 ^ 63) :
    ∀ (fuel i : Nat) (rs : List (Int × Int)), i < (number b).length → rangeLoop len fuel ⟨number b, [0]⟩ i rs = .diverge
  | 0, _, _, _ => rfl
  | fuel + 1, i, rs, hi => by
    have hskip : skipBlanks ⟨number b, [0]⟩ i = i := by
      unfold skipBlanks
      have : ((number b ++ [0]).drop i).takeWhile (· = 32) = [] := by
        rw [List.drop_append_of_le_length (by omega)]
        cases hd : (number b).drop i with
        | nil =>
          have := congrArg List.length hd
          simp at this
          omega
        | cons c cs =>
          have hm : c ∈ number b := List.mem_of_mem_drop (by rw [hd]; simp)
          have := Http.number_digits b c hm
          rw [List.cons_append, List.takeWhile_cons, if_neg (by simp; omega)]
      simp [this]
    rw [rangeLoop, if_pos hi]
    simp only
    rw [hskip, strtoll_any b (by omega) 0 [] (by omega) (by omega), Out.bind_ok,
      Http.index_missing _ 45 (no_dash b).1 hn, lift_ok, Out.bind_ok]
    simp only [Out.bind_ok]
    rw [if_neg (by
        rw [toU64_nat b (by omega), toU64_nat len (by omega)]
        omega),
      Http.index_missing _ 44 (no_dash b).2.1 hn, lift_ok, Out.bind_ok]
    exact loop_forever len b hb hl hn fuel i _ hi

theorem header_pre (a : Nat) : 45 ∉ str "bytes=" ++ number a := by
  intro h
  rcases List.mem_append.1 h with h | h
  · revert h; decide
  · exact (no_dash a).1 h

theorem header_start (a b : Nat) : Http.strtoll (rangeHeader a b ++ [0]) = .ok 0 := by
  unfold rangeHeader
  rw [List.append_assoc, List.append_assoc]
  exact strtoll_bytes _

/-- **C115 fails** for every proper request for a part of a file, whether it starts at 0 or not: the first number is not
read, and the reply is the `b` bytes from the start of the file, said to be the bytes from 0 to `b`. -/
theorem range_from_start (data : List Nat) (a b fuel : Nat) (hab : a ≤ b) (hb : b < data.length) (hl : data.length < 2 ^ 63)
    (hh : (rangeHeader a b).length < 2 ^ 63) (hdig : (number b).length ≤ (number a).length + 6) :
    buildRangeResponse (fuel + 2) data (rangeHeader a b) = .ok ⟨206, some (data.take b), some (0, b, data.length)⟩ ∧
      (⟨206, some (data.take b), some (0, b, data.length)⟩ : Reply) ≠ rangeReply data a b := by
  constructor
  · have hstart := header_start a b
    unfold buildRangeResponse
    have hloop := loop_first data.length (fuel + 1) 0 (str "bytes=" ++ number a) 0 b (header_pre a) (by simp; omega)
      hh (by omega) hl hstart (by omega) (by omega) []
    have hlen : ¬ (str "bytes=" ++ number a).length < (number b).length := by
      have : (str "bytes=").length = 6 := by decide
      rw [List.length_append]
      omega
    rw [show rangeHeader a b = str "bytes=" ++ number a ++ 45 :: number b from rfl, hloop, rangeLoop, if_neg hlen, Out.bind_ok]
    simp only [List.nil_append]
    rw [show toU64 ((0 : Nat) : Int) = 0 from rfl]
    unfold Str.substr
    rw [if_pos (Nat.zero_le _), if_neg (by omega), if_pos (by omega), lift_ok, Out.bind_ok]
    simp
  · intro e
    have h1 : (data.take b) = (data.drop a).take (b + 1 - a) := Option.some.inj (congrArg Reply.body e)
    have h2 : ((0 : Int), (b : Int), data.length) = ((a : Int), (b : Int), data.length) := Option.some.inj (congrArg Reply.range e)
    have h3 : (0 : Int) = (a : Int) := (Prod.mk.inj h2).1
    have ha : a = 0 := by omega
    subst ha
    have := congrArg List.length h1
    simp at this
    omega

/-- **C115 fails**: if the second number has more digits than what stands before the dash has bytes, the loop never ends and
its vector grows without bound: one request (for a file of over ten million bytes, `bytes=0-10000000`) stops the server. -/
theorem range_never_answered (data : List Nat) (a b fuel : Nat) (hb : b < data.length) (hl : data.length < 2 ^ 63)
    (hh : (rangeHeader a b).length < 2 ^ 63) (hdig : (number a).length + 6 < (number b).length) :
    buildRangeResponse fuel data (rangeHeader a b) = .diverge := by
  unfold buildRangeResponse
  cases fuel with
  | zero => rfl
  | succ fuel =>
    have hstart := header_start a b
    have hloop := loop_first data.length fuel 0 (str "bytes=" ++ number a) 0 b (header_pre a) (by simp; omega)
      hh (by omega) hl hstart (by omega) (by omega) []
    rw [show rangeHeader a b = str "bytes=" ++ number a ++ 45 :: number b from rfl, hloop,
      loop_forever data.length b hb hl (by simp [rangeHeader] at hh; omega) fuel _ _ (by
        have : (str "bytes=").length = 6 := by decide
        rw [List.length_append]
        omega)]
    rfl

/-- **C115 fails**: without the unit, two numbers within the file whose sum is greater than its length abort the server. -/
theorem range_aborts (data : List Nat) (a b fuel : Nat) (hab : a ≤ b) (hb : b ≤ data.length) (hl : data.length < 2 ^ 63)
    (hsum : data.length < a + b) (ha : a < data.length) (hh : (number a ++ 45 :: number b).length < 2 ^ 63)
    (hdig : (number b).length ≤ (number a).length) :
    buildRangeResponse (fuel + 2) data (number a ++ 45 :: number b) = .abort := by
  have hstart : Http.strtoll (number a ++ 45 :: number b ++ [0]) = .ok (a : Int) := by
    rw [List.append_assoc]
    exact strtoll_any a (by omega) 45 _ (by omega) (by omega)
  have hloop := loop_first data.length (fuel + 1) 0 (number a) a b (no_dash a).1 (by simp; omega) hh hb hl hstart hab ha []
  unfold buildRangeResponse
  rw [hloop, rangeLoop, if_neg (by simpa using hdig), Out.bind_ok]
  simp only [List.nil_append]
  rw [toU64_nat a (by omega)]
  unfold Str.substr
  rw [if_pos (by omega), if_neg (by omega), if_neg (by omega)]
  rfl

/-- **C115 (partial).** A request without a range gets the whole file; one whose end lies behind the end of the file is
refused with 416.  The full statement says that a proper range gets the bytes it asks for; `range_from_start` shows that this
is never so. -/
theorem ranges_partial (fuel : Nat) (req : Req) (cf : Cached) (mm : Mime) :
    (req.range = none → prepareResponse fuel req cf mm = .ok ⟨200, some cf.data, none⟩) ∧
    (∀ a b, req.range = some (rangeHeader a b) → mm.allowRange = true → cf.data.length < b → b < 2 ^ 63 →
      (rangeHeader a b).length < 2 ^ 63 → 0 < fuel → prepareResponse fuel req cf mm = .ok (.plain 416)) := by
  constructor
  · intro h
    unfold prepareResponse
    rw [h]
  · intro a b h hm hb hb63 hh hf
    obtain ⟨fuel, rfl⟩ : ∃ k, fuel = k + 1 := ⟨fuel - 1, by omega⟩
    unfold prepareResponse
    rw [h]
    simp only
    rw [if_pos hm]
    unfold buildRangeResponse
    have hsub : (View.mk (rangeHeader a b) [0]).sub ((str "bytes=" ++ number a).length + 1) (-1) = .ok ⟨number b, [0]⟩ := by
      have := Http.sub_tail (str "bytes=" ++ number a ++ [45]) (number b) [0] ((str "bytes=" ++ number a).length + 1) (by simp; omega)
      simpa [rangeHeader] using this
    rw [rangeLoop, if_pos (by simp [rangeHeader]; omega)]
    simp only
    rw [header_start, Out.bind_ok, show rangeHeader a b = (str "bytes=" ++ number a) ++ 45 :: number b from rfl,
      Http.index_found _ (number b) 45 (header_pre a) hh, lift_ok, Out.bind_ok]
    simp only
    rw [show (str "bytes=" ++ number a) ++ 45 :: number b = rangeHeader a b from rfl, hsub, Out.bind_ok,
      strtoll_any b hb63 0 [] (by omega) (by omega), Out.bind_ok]
    simp only [Out.bind_ok]
    rw [if_pos (Or.inr (Or.inr (by rw [toU64_nat b (by omega)]; exact hb)))]
    rfl

/-- Ten bytes: bytes 2 to 4 are asked for, bytes 0 to 3 are sent. -/
example : buildRangeResponse 3 [10, 11, 12, 13, 14, 15, 16, 17, 18, 19] (str "bytes=2-4") = .ok ⟨206, some [10, 11, 12, 13], some (0, 4, 10)⟩ := by
  decide +kernel

example : buildRangeResponse 3 [10, 11, 12, 13, 14, 15, 16, 17, 18, 19] (str "6-8") = .abort := by decide +kernel

example : buildRangeResponse 3 [10, 11, 12, 13, 14, 15, 16, 17, 18, 19] (str "bytes=2-40") = .ok (.plain 416) := by decide +kernel

/-- Numbers for which the server never answers. -/
example : (number 0).length + 6 < (number 10000000).length ∧ (rangeHeader 0 10000000).length < 2 ^ 63 := by decide +kernel

end Verif.FileServer
