import Verif.Std.Http.Model
/-! # Query arguments survive percent-encoding (C101) -/
namespace Verif.Http

open Verif.Text (streamChar)

/-! ## Specification: reading a query string -/

/-- The value of a hexadecimal digit. -/
def hexValue (c : Nat) : Option Nat :=
  if 48 ≤ c ∧ c ≤ 57 then some (c - 48)
  else if 97 ≤ c ∧ c ≤ 102 then some (c - 97 + 10)
  else if 65 ≤ c ∧ c ≤ 70 then some (c - 65 + 10)
  else none

/-- Percent-decoding (RFC 3986): `%` and two hexadecimal digits are a byte, every other character is itself. -/
def percentDecode : List Nat → Option (List Nat)
  | [] => some []
  | c :: rest =>
    if c = 37 then
      match rest with
      | a :: b :: rest' =>
        match hexValue a, hexValue b, percentDecode rest' with
        | some x, some y, some d => some ((x * 16 + y) :: d)
        | _, _, _ => none
      | _ => none
    else (percentDecode rest).map (c :: ·)

/-- The pieces between the occurrences of a separator. -/
def pieces (sep : Nat) : List Nat → List (List Nat)
  | [] => [[]]
  | c :: rest =>
    if c = sep then [] :: pieces sep rest
    else match pieces sep rest with
      | [] => [[c]]
      | p :: ps => (c :: p) :: ps

/-- Reading `name=value`: both sides are decoded. -/
def readPair (p : List Nat) : Option (List Nat × List Nat) :=
  match pieces 61 p with
  | [k, v] =>
    match percentDecode k, percentDecode v with
    | some k, some v => some (k, v)
    | _, _ => none
  | _ => none

/-- Reading all of a list, or nothing. -/
def readAll : List (List Nat) → Option (List (List Nat × List Nat))
  | [] => some []
  | p :: ps =>
    match readPair p, readAll ps with
    | some x, some xs => some (x :: xs)
    | _, _ => none

/-- Reading a query string: pairs separated by `&`. -/
def readQuery (q : List Nat) : Option (List (List Nat × List Nat)) := readAll (pieces 38 q)

/-- The characters an encoded name or value is made of. -/
def safe (c : Nat) : Prop := (97 ≤ c ∧ c ≤ 122) ∨ (65 ≤ c ∧ c ≤ 90) ∨ (48 ≤ c ∧ c ≤ 57) ∨ c = 37

/-! ## The encoder -/

theorem plain_iff (c : Nat) : plain c = true ↔ (97 ≤ c ∧ c ≤ 122) ∨ (65 ≤ c ∧ c ≤ 90) ∨ (48 ≤ c ∧ c ≤ 57) := by
  simp only [plain, Bool.or_eq_true, Bool.and_eq_true, decide_eq_true_eq]
  constructor <;> intro h
  · rcases h with (h | h) | h <;> simp [h]
  · rcases h with h | h | h <;> simp [h]

theorem stream_small (c : Nat) (h : c < 128) : streamChar c = [c] := by
  unfold streamChar
  rw [if_pos h, Nat.mod_eq_of_lt (by omega)]

theorem hex_facts : ∀ i < 16, hexValue (hex i) = some i ∧ safe (hex i) ∧ hex i < 128 := by
  unfold safe
  decide

theorem nibbles (c : Nat) (h : c < 256) : c >>> 4 < 16 ∧ c &&& 15 < 16 ∧ (c >>> 4) * 16 + (c &&& 15) = c := by
  have h1 : c >>> 4 = c / 16 := Nat.shiftRight_eq_div_pow c 4
  have h2 : c &&& 15 = c % 16 := Nat.and_two_pow_sub_one_eq_mod c 4
  omega

/-- One byte of the encoding. -/
theorem encode_cons (c : Nat) (cs : List Nat) (h : c < 256) :
    urlEncode (c :: cs) = (if plain c then [c] else [37, hex (c >>> 4), hex (c &&& 15)]) ++ urlEncode cs := by
  obtain ⟨h1, h2, _⟩ := nibbles c h
  rw [urlEncode]
  by_cases hp : plain c = true
  · rw [if_pos hp, if_pos hp, stream_small c]
    have := (plain_iff c).1 hp
    omega
  · rw [if_neg hp, if_neg hp, stream_small 37 (by omega), stream_small _ (hex_facts _ h1).2.2, stream_small _ (hex_facts _ h2).2.2]
    rfl

theorem decode_encode : ∀ d : List Nat, (∀ b ∈ d, b < 256) → percentDecode (urlEncode d) = some d
  | [], _ => by simp [urlEncode, percentDecode]
  | c :: cs, h => by
    have hc := h c (by simp)
    obtain ⟨h1, h2, h3⟩ := nibbles c hc
    have ih := decode_encode cs (fun b hb => h b (by simp [hb]))
    rw [encode_cons c cs hc]
    by_cases hp : plain c = true
    · have hne : c ≠ 37 := by have := (plain_iff c).1 hp; omega
      rw [if_pos hp, List.singleton_append, percentDecode.eq_def]
      simp [hne, ih]
    · rw [if_neg hp]
      simp only [List.cons_append, List.nil_append]
      rw [percentDecode.eq_def]
      simp [(hex_facts _ h1).1, (hex_facts _ h2).1, ih, h3]

theorem encode_safe : ∀ d : List Nat, (∀ b ∈ d, b < 256) → ∀ c ∈ urlEncode d, safe c
  | [], _, c, hc => by simp [urlEncode] at hc
  | a :: cs, h, c, hc => by
    have ha := h a (by simp)
    obtain ⟨h1, h2, _⟩ := nibbles a ha
    rw [encode_cons a cs ha, List.mem_append] at hc
    rcases hc with hc | hc
    · by_cases hp : plain a = true
      · rw [if_pos hp, List.mem_singleton] at hc
        rw [hc]
        rcases (plain_iff a).1 hp with h | h | h
        · exact Or.inl h
        · exact Or.inr (Or.inl h)
        · exact Or.inr (Or.inr (Or.inl h))
      · rw [if_neg hp] at hc
        simp only [List.mem_cons, List.not_mem_nil, or_false] at hc
        rcases hc with rfl | rfl | rfl
        · exact Or.inr (Or.inr (Or.inr rfl))
        · exact (hex_facts _ h1).2.1
        · exact (hex_facts _ h2).2.1
    · exact encode_safe cs (fun b hb => h b (by simp [hb])) c hc

theorem pieces_none (sep : Nat) : ∀ d : List Nat, sep ∉ d → pieces sep d = [d]
  | [], _ => rfl
  | c :: cs, h => by
    simp only [List.mem_cons, not_or] at h
    rw [pieces, if_neg (fun e => h.1 e.symm), pieces_none sep cs h.2]

theorem pieces_split (sep : Nat) : ∀ (a b : List Nat), sep ∉ a → pieces sep (a ++ sep :: b) = a :: pieces sep b
  | [], b, _ => by simp [pieces]
  | c :: cs, b, h => by
    simp only [List.mem_cons, not_or] at h
    rw [List.cons_append, pieces, if_neg (fun e => h.1 e.symm), pieces_split sep cs b h.2]

theorem not_safe {c : Nat} (h : c = 38 ∨ c = 61 ∨ c = 63) : ¬ safe c := by
  unfold safe; omega

/-- Names and values are strings of bytes. -/
def Bytes (args : List (List Nat × List Nat)) : Prop := ∀ p ∈ args, (∀ b ∈ p.1, b < 256) ∧ (∀ b ∈ p.2, b < 256)

theorem pair_read (k v : List Nat) (hk : ∀ b ∈ k, b < 256) (hv : ∀ b ∈ v, b < 256) :
    readPair (urlEncode k ++ [61] ++ urlEncode v) = some (k, v) := by
  have h1 : (61 : Nat) ∉ urlEncode k := fun h => not_safe (by simp) (encode_safe k hk _ h)
  have h2 : (61 : Nat) ∉ urlEncode v := fun h => not_safe (by simp) (encode_safe v hv _ h)
  unfold readPair
  rw [List.append_assoc, List.singleton_append, pieces_split _ _ _ h1, pieces_none _ _ h2]
  simp [decode_encode k hk, decode_encode v hv]

theorem items_read : ∀ (args : List (List Nat × List Nat)) (k v : List Nat), Bytes ((k, v) :: args) →
    readQuery (encodeItems true ((k, v) :: args)) = some ((k, v) :: args)
  | [], k, v, h => by
    have hb := h (k, v) (by simp)
    have hne : (38 : Nat) ∉ urlEncode k ++ [61] ++ urlEncode v := by
      simp only [List.mem_append, List.mem_singleton, not_or]
      exact ⟨⟨fun h => not_safe (by simp) (encode_safe k hb.1 _ h), by decide⟩, fun h => not_safe (by simp) (encode_safe v hb.2 _ h)⟩
    have e : encodeItems true [(k, v)] = urlEncode k ++ [61] ++ urlEncode v := by simp [encodeItems]
    rw [readQuery, e, pieces_none _ _ hne, readAll, pair_read k v hb.1 hb.2]
    rfl
  | (k', v') :: rest, k, v, h => by
    have hb := h (k, v) (by simp)
    have hne : (38 : Nat) ∉ urlEncode k ++ [61] ++ urlEncode v := by
      simp only [List.mem_append, List.mem_singleton, not_or]
      exact ⟨⟨fun h => not_safe (by simp) (encode_safe k hb.1 _ h), by decide⟩, fun h => not_safe (by simp) (encode_safe v hb.2 _ h)⟩
    have ih := items_read rest k' v' (fun p hp => h p (List.mem_cons_of_mem _ hp))
    have e : encodeItems true ((k, v) :: (k', v') :: rest) =
        (urlEncode k ++ [61] ++ urlEncode v) ++ 38 :: encodeItems true ((k', v') :: rest) := by
      simp [encodeItems]
    rw [readQuery] at ih ⊢
    rw [e, pieces_split _ _ _ hne, readAll, pair_read k v hb.1 hb.2, ih]

theorem items_safe : ∀ (args : List (List Nat × List Nat)) (first : Bool), Bytes args →
    ∀ c ∈ encodeItems first args, safe c ∨ c = 38 ∨ c = 61
  | [], _, _, c, hc => by simp [encodeItems] at hc
  | (k, v) :: rest, first, h, c, hc => by
    have hb := h (k, v) (by simp)
    rw [encodeItems] at hc
    simp only [List.mem_append, List.mem_singleton] at hc
    rcases hc with (((hc | hc) | hc) | hc) | hc
    · cases first
      · simp at hc; simp [hc]
      · simp at hc
    · exact Or.inl (encode_safe k hb.1 c hc)
    · simp [hc]
    · exact Or.inl (encode_safe v hb.2 c hc)
    · exact items_safe rest false (fun p hp => h p (by simp [hp])) c hc

/-- **C101.** The arguments of a request are sent after a `?` as a query string that reads back, pair by pair and byte
for byte, to the arguments that were given, whatever bytes they contain; without arguments nothing is sent.  The query
string is made only of letters, digits, `%`, `&` and `=`, so it can neither end the request line nor start a fragment. -/
theorem query_reads_back (args : List (List Nat × List Nat)) (h : Bytes args) :
    (args = [] → encodeArgs args = []) ∧
    (args ≠ [] → ∃ q, encodeArgs args = 63 :: q ∧ readQuery q = some args ∧ ∀ c ∈ q, safe c ∨ c = 38 ∨ c = 61) := by
  constructor
  · rintro rfl; rfl
  · intro hne
    match args, h, hne with
    | (k, v) :: rest, h, _ => exact ⟨_, rfl, items_read rest k v h, items_safe _ _ h⟩

/-- Two names with special characters, one of them with a high byte, an empty value. -/
example : encodeArgs [(str "a b", str "x&y=1"), ([233], [])] = str "?a%20b=x%26y%3d1&%e9=" := by decide
example : Bytes [(str "a b", str "x&y=1"), ([233], [])] := by unfold Bytes; decide
example : readQuery (str "a%20b=x%26y%3d1&%e9=") = some [(str "a b", str "x&y=1"), ([233], [])] := by decide +kernel

end Verif.Http
