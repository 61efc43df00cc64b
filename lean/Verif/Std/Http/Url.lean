import Verif.Std.Http.Methods
import Verif.Std.Str.View
/-! # Addresses of requests (C110) and numbers in views (C111)

Source: /repo/src/cxy/stdlib/fetch.cxy 536-541, 634-661 (`Session.create`) and 664-697 (`fetch`);
/repo/src/cxy/runtime/builtins.cxy 471-475 (`__string.toi`).

A view is given by its text and the memory that follows it, for `toi` gives the C function `strtoll` only the address.
Simplified: `methodFromString` reads a NUL byte after its text (as in the model of C107); resolving the host, connecting and
TLS are left out: the result is what they are asked for. -/
namespace Verif.Http

/-- A view: its bytes and the bytes that follow them in memory. -/
structure View where
  text : List Nat
  after : List Nat

/-- Outcomes of the string functions as outcomes here. -/
def lift {α : Type} : Str.Out α → Out α
  | .ok a => .ok a
  | .abort => .abort
  | .ub => .ub
  | .diverge => .diverge

@[simp] theorem lift_ok {α : Type} (a : α) : lift (.ok a : Str.Out α) = .ok a := rfl

/-- builtins.cxy 455-463 `substr` -/
def View.sub (v : View) (start : Nat) (count : Int) : Out View :=
  (lift (Str.substr v.text start count)).bind fun t => .ok ⟨t, (v.text ++ v.after).drop (start + t.length)⟩

/-- The value of a digit, 16 for other bytes. -/
def digitOf (c : Nat) : Nat :=
  if 48 ≤ c ∧ c ≤ 57 then c - 48 else if 97 ≤ c ∧ c ≤ 102 then c - 87 else if 65 ≤ c ∧ c ≤ 70 then c - 55 else 16

/-- The digits that begin the memory, and their number; without a byte after them the read is undefined. -/
def readDigits (base : Nat) (mem : List Nat) : Out Nat :=
  if mem.dropWhile (fun c => digitOf c < base) = [] then .ub
  else .ok ((mem.takeWhile fun c => digitOf c < base).foldl (fun a c => a * base + digitOf c) 0)

/-- `strtoll` with base 0, after the sign. -/
def readNumber : List Nat → Out Nat
  | 48 :: x :: h :: r =>
    if (x = 120 ∨ x = 88) ∧ digitOf h < 16 then readDigits 16 (h :: r) else readDigits 8 (48 :: x :: h :: r)
  | 48 :: r => readDigits 8 (48 :: r)
  | m => readDigits 10 m

/-- C `strtoll(s, &ep, 0)`, which keeps numbers that are too big at the limit. -/
def strtoll (mem : List Nat) : Out Int :=
  match mem.dropWhile Str.isSpace with
  | 45 :: r => (readNumber r).bind fun n => .ok (-(min n (2 ^ 63) : Nat))
  | 43 :: r => (readNumber r).bind fun n => .ok (min n (2 ^ 63 - 1) : Nat)
  | m => (readNumber m).bind fun n => .ok (min n (2 ^ 63 - 1) : Nat)

/-- builtins.cxy 471-475 `toi` for an integer type of `w` bits: its bits as a number. -/
def View.toi (v : View) (w : Nat) : Out Nat := (strtoll (v.text ++ v.after)).bind fun i => .ok (i % (2 ^ w : Nat)).toNat

/-- What is asked for: the method, the protocol, where to connect, and the resource. -/
structure Asked where
  method : Method
  proto : List Nat
  host : List Nat
  port : Nat
  resource : List Nat
  deriving DecidableEq

/-- fetch.cxy 634-661 `Session.create`: protocol, host and port. -/
def createSession (url : View) : Out (List Nat × List Nat × Nat) :=
  (lift (Str.find url.text (str "://"))).bind fun idx =>
  (match idx with
    | some i => (url.sub 0 i).bind fun p => (url.sub (i + 3) (-1)).bind fun h => Out.ok (p.text, h)
    | none => .ok (str "http", url)).bind fun (proto, host) =>
  (lift (Str.rIndexOf host.text 58)).bind fun idx =>
  match idx with
  | some j => (host.sub (j + 1) (-1)).bind fun p => (p.toi 16).bind fun port => (host.sub 0 j).bind fun h => .ok (proto, h.text, port)
  | none => .ok (proto, host.text, if Str.viewEq proto (str "https") then 443 else 80)

/-- fetch.cxy 666-680: the method that may stand before the URL; `none` is a raised `HttpError`. -/
def urlMethod (url : View) : Out (Option (Method × View)) :=
  if url.text.head? = some 64 then
    (url.sub 1 (-1)).bind fun name =>
    (methodFromString name.text).bind fun ret =>
    if ret.1 = .unknown then .ok none
    else
      let mem := (name.text ++ name.after).drop ret.2
      if mem.dropWhile Str.isSpace = [] then .ub
      else (name.sub (ret.2 + (mem.takeWhile Str.isSpace).length) (-1)).bind fun url => .ok (some (ret.1, url))
  else .ok (some (.get, url))

/-- fetch.cxy 664-697 `fetch`, up to the connection. -/
def fetch (url : View) : Out (Option Asked) :=
  (urlMethod url).bind fun
  | none => .ok none
  | some (method, url) =>
    (lift (Str.find url.text (str "://"))).bind fun idx =>
    (match idx with
      | some i =>
        (url.sub (i + 3) (-1)).bind fun stem =>
        (lift (Str.indexOf stem.text 47)).bind fun idx2 =>
        match idx2 with
        | some k => (stem.sub k (-1)).bind fun res => (url.sub 0 ((3 + i + k : Nat) : Int)).bind fun url => Out.ok (res.text, url)
        | none => .ok (str "/", url)
      | none => .ok (str "/", url)).bind fun (resource, url) =>
    (createSession url).bind fun (proto, host, port) => .ok (some ⟨method, proto, host, port, resource⟩)

/-! ## Specification -/

/-- The parts of an address. -/
structure Address where
  method : Option (Method × Nat)
  scheme : Option (List Nat)
  host : List Nat
  port : Option Nat
  resource : List Nat

/-- `@POST https://host:8080/resource` -/
def Address.text (a : Address) : List Nat :=
  (match a.method with | some (m, spaces) => 64 :: (methodName m ++ List.replicate spaces 32) | none => []) ++
  (match a.scheme with | some s => s ++ str "://" | none => []) ++ a.host ++
  (match a.port with | some n => 58 :: number n | none => []) ++ a.resource

/-- What the address asks for. -/
def Address.asks (a : Address) : Asked where
  method := match a.method with | some (m, _) => m | none => .get
  proto := match a.scheme with | some s => s | none => str "http"
  host := a.host
  port := match a.port with | some n => n | none => if a.scheme = some (str "https") then 443 else 80
  resource := if a.resource = [] then str "/" else a.resource

/-- A proper address: a known method; a scheme without colon; a host without colon or slash; a port in range; a resource
that begins with a slash. -/
structure Address.Good (a : Address) : Prop where
  method : ∀ m k, a.method = some (m, k) → m ≠ .unknown
  scheme : ∀ s, a.scheme = some s → 58 ∉ s ∧ 0 ∉ s
  host : a.host ≠ [] ∧ 58 ∉ a.host ∧ 47 ∉ a.host
  port : ∀ n, a.port = some n → 0 < n ∧ n < 65536
  resource : a.resource = [] ∨ a.resource.head? = some 47
  noAt : ∀ c, (match a.scheme with | some s => s ++ str "://" | none => a.host).head? = some c → c ≠ 64 ∧ Str.isSpace c = false

/-! ## Numbers -/

theorem digitOf_ten (c : Nat) : digitOf c < 10 ↔ 48 ≤ c ∧ c ≤ 57 := by
  unfold digitOf
  split
  · omega
  split
  · omega
  split
  · omega
  · omega

theorem number_digits (n : Nat) : ∀ c ∈ number n, 48 ≤ c ∧ c ≤ 57 := by
  intro c hc
  obtain ⟨b, hb, rfl⟩ := List.mem_map.1 hc
  have := decimal_digits n b hb
  simpa [isDigitByte] using this

theorem number_head (n : Nat) (h : 0 < n) : ∃ c r, number n = c :: r ∧ 49 ≤ c ∧ c ≤ 57 := by
  induction n using decimal_induction with
  | h1 n hn =>
    refine ⟨48 + n % 10, [], ?_, by omega, by omega⟩
    rw [number, decimal_eq, if_pos hn, List.map_cons, digitByte_toNat]; rfl
  | h2 n hn ih =>
    obtain ⟨c, r, e, h1, h2⟩ := ih (by omega)
    refine ⟨c, r ++ [48 + n % 10], ?_, h1, h2⟩
    rw [number, decimal_eq, if_neg hn, List.map_append, List.map_cons, digitByte_toNat]
    have : List.map (fun x => x.toNat) (decimal (n / 10)) = c :: r := e
    rw [this]; rfl

theorem span_stop (p : Nat → Bool) : ∀ (v r : List Nat), (∀ c ∈ v, p c = true) → (∀ c, r.head? = some c → p c = false) →
    (v ++ r).takeWhile p = v ∧ (v ++ r).dropWhile p = r
  | [], [], _, _ => ⟨rfl, rfl⟩
  | [], c :: r, _, h => by
    have := h c rfl
    simp [this]
  | c :: v, r, hv, h => by
    have hc := hv c (by simp)
    have ih := span_stop p v r (fun d hd => hv d (by simp [hd])) h
    simp [hc, ih.1, ih.2]

theorem number_value (n : Nat) : (number n).foldl (fun a c => a * 10 + digitOf c) 0 = n := by
  have key : ∀ (l : List (BitVec 8)) (a : Nat), (∀ b ∈ l, isDigitByte b = true) →
      (l.map (·.toNat)).foldl (fun a c => a * 10 + digitOf c) a = l.foldl (fun a b => a * 10 + (b.toNat - 48)) a := by
    intro l
    induction l with
    | nil => intro a _; rfl
    | cons b l ih =>
      intro a h
      have hb := h b (by simp)
      simp only [isDigitByte, Bool.and_eq_true, decide_eq_true_eq] at hb
      have : digitOf b.toNat = b.toNat - 48 := by unfold digitOf; rw [if_pos hb]
      rw [List.map_cons, List.foldl_cons, List.foldl_cons, this]
      exact ih _ (fun x hx => h x (by simp [hx]))
  rw [number, key _ _ (decimal_digits n)]
  exact decimalValue_decimal n

theorem strtoll_number (n : Nat) (h : 0 < n) (c : Nat) (r : List Nat) (hc : ¬ (48 ≤ c ∧ c ≤ 57)) :
    strtoll (number n ++ c :: r) = .ok (min n (2 ^ 63 - 1) : Nat) := by
  obtain ⟨d, ds, e, h1, h2⟩ := number_head n h
  have hs : (number n ++ c :: r).dropWhile Str.isSpace = number n ++ c :: r := by
    rw [e, List.cons_append, List.dropWhile_cons, if_neg]
    simp [Str.isSpace]; omega
  have hread : readNumber (number n ++ c :: r) = .ok n := by
    have hd : readDigits 10 (number n ++ c :: r) = .ok n := by
      have hsp := span_stop (fun c => digitOf c < 10) (number n) (c :: r)
        (fun x hx => by simpa using (digitOf_ten x).2 (number_digits n x hx))
        (by intro x hx; cases hx; simp only [decide_eq_false_iff_not, digitOf_ten]; exact hc)
      unfold readDigits
      rw [hsp.1, hsp.2, if_neg (by simp), number_value]
    rw [← hd]
    rw [e, List.cons_append]
    unfold readNumber
    split
    · next heq => have := (List.cons.inj heq).1; omega
    · next heq => have := (List.cons.inj heq).1; omega
    · rfl
  unfold strtoll
  rw [hs]
  split
  · next heq => rw [e] at heq; have := (List.cons.inj heq).1; omega
  · next heq => rw [e] at heq; have := (List.cons.inj heq).1; omega
  · rw [hread]; rfl

/-- **C111 (partial).** A view of the decimal digits of a number that fits the type gives that number, if the memory after
the view goes on with something that is no digit.  The full statement has no condition on that memory, and allows leading
zeros; `toi_reads_on` and `toi_octal` show that it fails. -/
theorem toi_reads_number_partial (n w : Nat) (hn : 0 < n) (hw : w ≤ 63) (h : n < 2 ^ w) (c : Nat) (r : List Nat) (hc : ¬ (48 ≤ c ∧ c ≤ 57)) :
    (View.mk (number n) (c :: r)).toi w = .ok n := by
  have hlt : n < 2 ^ 63 := Nat.lt_of_lt_of_le h (Nat.pow_le_pow_right (by decide) hw)
  have hmin : min n (2 ^ 63 - 1) = n := by omega
  unfold View.toi
  rw [strtoll_number n hn c r hc, hmin, Out.bind_ok]
  congr 1
  rw [← Int.natCast_emod, Int.toNat_natCast, Nat.mod_eq_of_lt h]

/-- The digits of 8080 followed by a slash are such a view. -/
example : (View.mk (str "8080") (str "/x")).toi 16 = .ok 8080 := by decide +kernel

/-- **C111 fails** when the view ends inside of a number: `toi` reads on past its end.  The view of all digits of a
number but the last gives the whole number. -/
theorem toi_reads_on (k w : Nat) (hk : 10 ≤ k) (hw : w ≤ 63) (h : k < 2 ^ w) (r : List Nat) :
    (View.mk (number (k / 10)) ((48 + k % 10) :: 0 :: r)).toi w = .ok k ∧ k ≠ k / 10 := by
  refine ⟨?_, by omega⟩
  have e : number (k / 10) ++ (48 + k % 10) :: 0 :: r = number k ++ 0 :: r := by
    conv => rhs; rw [number, decimal_eq, if_neg (by omega), List.map_append, List.map_cons, digitByte_toNat]
    simp [number]
  have := toi_reads_number_partial k w (by omega) hw h 0 r (by omega)
  unfold View.toi at this ⊢
  rw [e]
  exact this

/-- **C111 fails** for leading zeros, which `toi` takes for octal numbers, and for `0x`. -/
theorem toi_octal (d w c : Nat) (hd : d < 8) (hw : 4 ≤ w) (r : List Nat) (hc : ¬ (48 ≤ c ∧ c ≤ 57)) :
    (View.mk [48, 49, 48 + d] (c :: r)).toi w = .ok (8 + d) := by
  have hdig : ∀ x, 48 ≤ x → x ≤ 57 → digitOf x = x - 48 := by
    intro x h1 h2; unfold digitOf; rw [if_pos ⟨h1, h2⟩]
  have hd8 : digitOf (48 + d) = d := by rw [hdig _ (by omega) (by omega)]; omega
  have hc8 : ¬ digitOf c < 8 := by
    intro h
    exact hc ((digitOf_ten c).1 (by omega))
  have h0 : digitOf 48 = 0 := rfl
  have h1 : digitOf 49 = 1 := rfl
  have hread : readNumber (48 :: 49 :: (48 + d) :: c :: r) = .ok (8 + d) := by
    rw [readNumber, if_neg (by omega)]
    unfold readDigits
    simp [List.takeWhile, List.dropWhile, h0, h1, hd8, hd, hc8]
  have hst : strtoll (48 :: 49 :: (48 + d) :: c :: r) = .ok ((8 + d : Nat) : Int) := by
    unfold strtoll
    rw [show List.dropWhile Str.isSpace (48 :: 49 :: (48 + d) :: c :: r) = 48 :: 49 :: (48 + d) :: c :: r from rfl]
    simp only [hread, Out.bind_ok]
    congr 2
    omega
  unfold View.toi
  rw [show (View.mk [48, 49, 48 + d] (c :: r)).text ++ (View.mk [48, 49, 48 + d] (c :: r)).after = 48 :: 49 :: (48 + d) :: c :: r from rfl, hst,
    Out.bind_ok]
  congr 1
  have : 2 ^ 4 ≤ 2 ^ w := Nat.pow_le_pow_right (by decide) hw
  rw [← Int.natCast_emod, Int.toNat_natCast, Nat.mod_eq_of_lt (by omega)]

/-! ## Addresses -/

theorem first_some {P : Nat → Prop} {j : Nat} (hj : P j) (hno : ∀ k, k < j → ¬ P k) : ∀ r, Str.IsFirst P r → r = some j
  | none, h => absurd hj (h j)
  | some i, h => by
    rcases Nat.lt_trichotomy i j with hl | rfl | hl
    · exact absurd h.1 (hno i hl)
    · rfl
    · exact absurd hj (h.2 j hl)

theorem first_none {P : Nat → Prop} (hno : ∀ k, ¬ P k) : ∀ r, Str.IsFirst P r → r = none
  | none, _ => rfl
  | some i, h => absurd h.1 (hno i)

theorem last_some {P : Nat → Prop} {j : Nat} (hj : P j) (hno : ∀ k, j < k → ¬ P k) : ∀ r, Str.IsLast P r → r = some j
  | none, h => absurd hj (h j)
  | some i, h => by
    rcases Nat.lt_trichotomy i j with hl | rfl | hl
    · exact absurd hj (h.2 j hl)
    · rfl
    · exact absurd h.1 (hno i hl)

theorem last_none {P : Nat → Prop} (hno : ∀ k, ¬ P k) : ∀ r, Str.IsLast P r → r = none
  | none, _ => rfl
  | some i, h => absurd h.1 (hno i)

theorem find_found (a b : List Nat) (ha : 58 ∉ a) (hl : (a ++ str "://" ++ b).length < 2 ^ 63) :
    Str.find (a ++ str "://" ++ b) (str "://") = .ok (some a.length) := by
  obtain ⟨⟨r, e, h⟩, _⟩ := Str.search_is_exact_partial (a ++ str "://" ++ b) (str "://") 0 (by decide) hl
  rw [e, first_some (j := a.length) ⟨a, b, rfl, rfl⟩ _ r h]
  rintro k hk ⟨x, y, hxy, rfl⟩
  apply ha
  have h1 : (a ++ str "://" ++ b)[x.length]? = some 58 := by
    rw [hxy, List.append_assoc, List.getElem?_append_right (Nat.le_refl _), Nat.sub_self]; rfl
  rw [List.append_assoc, List.getElem?_append_left hk] at h1
  exact List.mem_of_getElem? h1

theorem find_missing (d : List Nat) (hd : 47 ∉ d) (hl : d.length < 2 ^ 63) : Str.find d (str "://") = .ok none := by
  obtain ⟨⟨r, e, h⟩, _⟩ := Str.search_is_exact_partial d (str "://") 0 (by decide) hl
  rw [e, first_none _ r h]
  rintro k ⟨x, y, rfl, _⟩
  apply hd
  simp [str]

theorem index_found (a b : List Nat) (c : Nat) (ha : c ∉ a) (hl : (a ++ c :: b).length < 2 ^ 63) :
    Str.indexOf (a ++ c :: b) c = .ok (some a.length) := by
  obtain ⟨_, _, ⟨r, e, h⟩, _⟩ := Str.search_is_exact_partial (a ++ c :: b) [0] c (by decide) hl
  rw [e, first_some (j := a.length) _ _ r h]
  · rw [List.getElem?_append_right (Nat.le_refl _)]; simp
  · intro k hk h1
    rw [List.getElem?_append_left hk] at h1
    exact ha (List.mem_of_getElem? h1)

theorem index_missing (d : List Nat) (c : Nat) (hd : c ∉ d) (hl : d.length < 2 ^ 63) : Str.indexOf d c = .ok none := by
  obtain ⟨_, _, ⟨r, e, h⟩, _⟩ := Str.search_is_exact_partial d [0] c (by decide) hl
  rw [e, first_none (fun k hk => hd (List.mem_of_getElem? hk)) r h]

theorem rindex_found (a b : List Nat) (c : Nat) (ha : a ≠ []) (hb : c ∉ b) : Str.rIndexOf (a ++ c :: b) c = .ok (some a.length) := by
  obtain ⟨r, e, h⟩ := Str.rIndexOf_last (a ++ c :: b) c
  rw [e, last_some (j := a.length) _ _ r h]
  · refine ⟨List.length_pos_iff.2 ha, ?_⟩
    rw [List.getElem?_append_right (Nat.le_refl _)]; simp
  · rintro k hk ⟨_, h1⟩
    rw [List.getElem?_append_right (by omega), List.getElem?_cons, if_neg (by omega)] at h1
    exact hb (List.mem_of_getElem? h1)

theorem rindex_missing (d : List Nat) (c : Nat) (hd : c ∉ d) : Str.rIndexOf d c = .ok none := by
  obtain ⟨r, e, h⟩ := Str.rIndexOf_last d c
  rw [e, last_none (fun k hk => hd (List.mem_of_getElem? hk.2)) r h]

theorem sub_tail (a b after : List Nat) (k : Nat) (hk : k = a.length) : (View.mk (a ++ b) after).sub k (-1) = .ok ⟨b, after⟩ := by
  subst hk
  unfold View.sub Str.substr
  simp only [List.length_append, Nat.le_add_right, if_true, lift_ok, Out.bind_ok, Nat.add_sub_cancel_left, List.drop_left, List.take_length]
  rw [← List.length_append, List.drop_left]

theorem sub_head (a b after : List Nat) (k : Nat) (hk : k = a.length) : (View.mk (a ++ b) after).sub 0 (k : Int) = .ok ⟨a, b ++ after⟩ := by
  subst hk
  unfold View.sub Str.substr
  rw [if_pos (Nat.zero_le _), if_neg (by omega), if_pos (by simp; omega)]
  simp only [lift_ok, Out.bind_ok, List.drop_zero, Int.toNat_natCast, List.take_left, Nat.zero_add]
  rw [List.append_assoc, List.drop_left]

/-- The address without method and resource. -/
def Address.server (a : Address) : List Nat :=
  (match a.scheme with | some s => s ++ str "://" | none => []) ++ a.host ++ (match a.port with | some n => 58 :: number n | none => [])

theorem create_ok (a : Address) (h : a.Good) (after : List Nat) (hl : a.server.length < 2 ^ 63)
    (hafter : ∃ c r, after = c :: r ∧ ¬ (48 ≤ c ∧ c ≤ 57)) :
    createSession ⟨a.server, after⟩ = .ok (a.asks.proto, a.host, a.asks.port) := by
  have hrest : ∀ proto : List Nat, 0 ∉ proto →
      ((lift (Str.rIndexOf (a.host ++ (match a.port with | some n => 58 :: number n | none => [])) 58)).bind fun idx =>
        match idx with
        | some j => ((View.mk (a.host ++ (match a.port with | some n => 58 :: number n | none => [])) after).sub (j + 1) (-1)).bind fun p =>
          (p.toi 16).bind fun port =>
          ((View.mk (a.host ++ (match a.port with | some n => 58 :: number n | none => [])) after).sub 0 j).bind fun h => Out.ok (proto, h.text, port)
        | none => .ok (proto, (a.host ++ (match a.port with | some n => 58 :: number n | none => [])),
            if Str.viewEq proto (str "https") then 443 else 80)) =
      .ok (proto, a.host, match a.port with | some n => n | none => if proto = str "https" then 443 else 80) := by
    intro proto h0
    cases hp : a.port with
    | none =>
      simp only [List.append_nil]
      rw [rindex_missing _ _ h.host.2.1, lift_ok, Out.bind_ok]
      by_cases hh : proto = str "https"
      · rw [if_pos hh, if_pos ((Str.viewEq_iff _ _ h0).2 hh)]
      · rw [if_neg hh, if_neg]
        exact fun e => hh ((Str.viewEq_iff _ _ h0).1 e)
    | some n =>
      obtain ⟨c, r, rfl, hc⟩ := hafter
      have hn := h.port n hp
      have hno : 58 ∉ number n := fun hm => by have := number_digits n _ hm; omega
      simp only
      rw [rindex_found _ _ _ h.host.1 hno, lift_ok, Out.bind_ok]
      simp only
      have e : a.host ++ 58 :: number n = (a.host ++ [58]) ++ number n := by simp
      rw [sub_head _ _ _ _ rfl, e, sub_tail _ _ _ _ (by simp), Out.bind_ok,
        toi_reads_number_partial n 16 hn.1 (by omega) (by omega) c r hc]
      rfl
  unfold createSession
  cases hs : a.scheme with
  | none =>
    have hserver : a.server = a.host ++ (match a.port with | some n => 58 :: number n | none => []) := by simp [Address.server, hs]
    have hslash : 47 ∉ a.server := by
      rw [hserver]
      intro hm
      rcases List.mem_append.1 hm with hm | hm
      · exact h.host.2.2 hm
      · cases hp : a.port with
        | none => rw [hp] at hm; simp at hm
        | some n =>
          rw [hp] at hm
          simp only [List.mem_cons] at hm
          rcases hm with hm | hm
          · omega
          · have := number_digits n _ hm; omega
    simp only
    rw [find_missing _ hslash hl, lift_ok, Out.bind_ok]
    simp only [Out.bind_ok]
    rw [hserver, hrest (str "http") (by decide)]
    have h1 : a.asks.proto = str "http" := by simp [Address.asks, hs]
    have h2 : a.asks.port = (match a.port with | some n => n | none => if str "http" = str "https" then 443 else 80) := by
      simp only [Address.asks, hs]
      cases a.port with
      | some n => rfl
      | none => rfl
    rw [h1, h2]
  | some s =>
    have hserver : a.server = s ++ str "://" ++ (a.host ++ (match a.port with | some n => 58 :: number n | none => [])) := by
      simp [Address.server, hs]
    simp only
    have hfind := find_found s (a.host ++ (match a.port with | some n => 58 :: number n | none => [])) (h.scheme s hs).1 (hserver ▸ hl)
    rw [hserver, hfind, lift_ok, Out.bind_ok]
    have e1 : (View.mk (s ++ str "://" ++ (a.host ++ (match a.port with | some n => 58 :: number n | none => []))) after).sub 0 (s.length : Int) =
        .ok ⟨s, str "://" ++ (a.host ++ (match a.port with | some n => 58 :: number n | none => [])) ++ after⟩ := by
      rw [List.append_assoc s]
      exact sub_head _ _ _ _ rfl
    have e2 := sub_tail (s ++ str "://") (a.host ++ (match a.port with | some n => 58 :: number n | none => [])) after (s.length + 3)
      (by rw [List.length_append]; rfl)
    simp only [e1, e2, Out.bind_ok]
    rw [hrest s (h.scheme s hs).2]
    have h1 : a.asks.proto = s := by simp [Address.asks, hs]
    have h2 : a.asks.port = (match a.port with | some n => n | none => if s = str "https" then 443 else 80) := by
      simp only [Address.asks, hs, Option.some.injEq]
    rw [h1, h2]

/-- The address without its method. -/
theorem fetch_plain (a : Address) (h : a.Good) (after : List Nat) (hl : (a.server ++ a.resource).length < 2 ^ 63)
    (hafter : ∃ c r, after = c :: r ∧ ¬ (48 ≤ c ∧ c ≤ 57)) (hr : a.scheme = none → a.resource = []) :
    ((lift (Str.find (a.server ++ a.resource) (str "://"))).bind fun idx =>
    (match idx with
      | some i =>
        ((View.mk (a.server ++ a.resource) after).sub (i + 3) (-1)).bind fun stem =>
        (lift (Str.indexOf stem.text 47)).bind fun idx2 =>
        match idx2 with
        | some k => (stem.sub k (-1)).bind fun res => ((View.mk (a.server ++ a.resource) after).sub 0 ((3 + i + k : Nat) : Int)).bind fun url => Out.ok (res.text, url)
        | none => .ok (str "/", (View.mk (a.server ++ a.resource) after))
      | none => .ok (str "/", (View.mk (a.server ++ a.resource) after))).bind fun (resource, url) =>
    (createSession url).bind fun (proto, host, port) => Out.ok (some (⟨a.asks.method, proto, host, port, resource⟩ : Asked))) =
    .ok (some a.asks) := by
  have hsl : a.server.length < 2 ^ 63 := by rw [List.length_append] at hl; omega
  have hslash : 47 ∉ a.host ++ (match a.port with | some n => 58 :: number n | none => []) := by
    intro hm
    rcases List.mem_append.1 hm with hm | hm
    · exact h.host.2.2 hm
    · cases hp : a.port with
      | none => rw [hp] at hm; simp at hm
      | some n =>
        rw [hp] at hm
        simp only [List.mem_cons] at hm
        rcases hm with hm | hm
        · omega
        · have := number_digits n _ hm; omega
  cases hs : a.scheme with
  | none =>
    have hr0 := hr hs
    have hserver : a.server = a.host ++ (match a.port with | some n => 58 :: number n | none => []) := by simp [Address.server, hs]
    have hfind : Str.find (a.server ++ a.resource) (str "://") = .ok none := by
      rw [hr0, List.append_nil]
      exact find_missing _ (hserver ▸ hslash) hsl
    rw [hfind, lift_ok, Out.bind_ok]
    simp only [Out.bind_ok]
    rw [hr0, List.append_nil, create_ok a h after hsl hafter]
    simp [Address.asks, hr0]
  | some s =>
    have hserver : a.server = s ++ str "://" ++ (a.host ++ (match a.port with | some n => 58 :: number n | none => [])) := by
      simp [Address.server, hs]
    have e : a.server ++ a.resource =
        s ++ str "://" ++ ((a.host ++ (match a.port with | some n => 58 :: number n | none => [])) ++ a.resource) := by
      rw [hserver]; simp only [List.append_assoc]
    have hfind := find_found s ((a.host ++ (match a.port with | some n => 58 :: number n | none => [])) ++ a.resource) (h.scheme s hs).1
      (e ▸ hl)
    rw [e, hfind, lift_ok, Out.bind_ok]
    have e2 := sub_tail (s ++ str "://") ((a.host ++ (match a.port with | some n => 58 :: number n | none => [])) ++ a.resource) after
      (s.length + 3) (by rw [List.length_append]; rfl)
    simp only [e2, Out.bind_ok]
    have hl2 : ((a.host ++ (match a.port with | some n => 58 :: number n | none => [])) ++ a.resource).length < 2 ^ 63 := by
      rw [e] at hl
      simp only [List.length_append] at hl ⊢
      omega
    cases hres : a.resource with
    | nil =>
      rw [List.append_nil, index_missing _ _ hslash (by rw [hres, List.append_nil] at hl2; exact hl2), lift_ok, Out.bind_ok]
      simp only [Out.bind_ok]
      have := create_ok a h after hsl hafter
      rw [hserver] at this
      rw [this]
      simp [Address.asks, hres]
    | cons c cs =>
      have hc : c = 47 := by
        rcases h.resource with hh | hh
        · rw [hres] at hh; cases hh
        · rw [hres] at hh; simpa using hh
      subst hc
      rw [index_found _ cs 47 hslash (by rw [hres] at hl2; exact hl2), lift_ok, Out.bind_ok]
      simp only
      rw [sub_tail _ _ _ _ rfl, Out.bind_ok]
      have e3 := sub_head a.server (47 :: cs) after (3 + s.length + (a.host ++ (match a.port with | some n => 58 :: number n | none => [])).length)
        (by rw [hserver]; simp only [List.length_append]; simp [str]; omega)
      have e' : s ++ str "://" ++ (a.host ++ (match a.port with | some n => 58 :: number n | none => []) ++ 47 :: cs) = a.server ++ 47 :: cs := by
        rw [hserver]; simp only [List.append_assoc]
      rw [e', e3, Out.bind_ok]
      simp only [Out.bind_ok]
      rw [create_ok a h (47 :: cs ++ after) hsl ⟨47, cs ++ after, rfl, by omega⟩]
      simp [Address.asks, hres]

/-- **C110 (partial).** A proper address with a scheme, or without scheme and resource, is asked for as it is written: with its
method or `GET`, its host, its port or the one of its scheme, and its resource or `/`.  The full statement has no condition on
the scheme and allows a query after the host; `path_without_scheme_lost` and `query_in_host` show that it fails. -/
theorem address_asked_partial (a : Address) (h : a.Good) (hr : a.scheme = none → a.resource = []) (hl : a.text.length < 2 ^ 63)
    (after : List Nat) (hafter : ∃ c r, after = c :: r ∧ ¬ (48 ≤ c ∧ c ≤ 57)) : fetch ⟨a.text, after⟩ = .ok (some a.asks) := by
  have htext : a.text = (match a.method with | some (m, spaces) => 64 :: (methodName m ++ List.replicate spaces 32) | none => []) ++
      (a.server ++ a.resource) := by simp [Address.text, Address.server]
  have hhead : ∃ c t, a.server ++ a.resource = c :: t ∧ c ≠ 64 ∧ Str.isSpace c = false := by
    cases hs : a.scheme with
    | none =>
      cases hh : a.host with
      | nil => exact absurd hh h.host.1
      | cons c cs =>
        have := h.noAt c (by rw [hs]; simp [hh])
        exact ⟨c, _, by simp [Address.server, hs, hh]; rfl, this⟩
    | some s =>
      cases hss : s with
      | nil => exact ⟨58, _, by simp [Address.server, hs, hss, str]; rfl, by decide, rfl⟩
      | cons c cs =>
        have := h.noAt c (by rw [hs]; simp [hss])
        exact ⟨c, _, by simp [Address.server, hs, hss]; rfl, this⟩
  obtain ⟨c0, t0, hct, hc0, hsp0⟩ := hhead
  have hmeth : urlMethod ⟨a.text, after⟩ = .ok (some (a.asks.method, ⟨a.server ++ a.resource, after⟩)) := by
    unfold urlMethod
    cases hm : a.method with
    | none =>
      have h1 : a.text = a.server ++ a.resource := by rw [htext, hm]; rfl
      have h2 : a.asks.method = .get := by simp [Address.asks, hm]
      rw [h1, h2, if_neg]
      rw [hct]
      simpa using hc0
    | some mk =>
      obtain ⟨m, k⟩ := mk
      have hmne := h.method m k hm
      have h1 : a.text = 64 :: (methodName m ++ (List.replicate k 32 ++ (a.server ++ a.resource))) := by rw [htext, hm]; simp
      have h2 : a.asks.method = m := by simp [Address.asks, hm]
      have e1 := sub_tail [64] (methodName m ++ (List.replicate k 32 ++ (a.server ++ a.resource))) after 1 rfl
      rw [h1, h2, if_pos (show (64 :: (methodName m ++ (List.replicate k 32 ++ (a.server ++ a.resource)))).head? = some 64 from rfl)]
      rw [show 64 :: (methodName m ++ (List.replicate k 32 ++ (a.server ++ a.resource))) = [64] ++ (methodName m ++ (List.replicate k 32 ++ (a.server ++ a.resource))) from rfl, e1, Out.bind_ok]
      simp only [method_reads_back m hmne, Out.bind_ok, if_neg hmne]
      have hsp := span_stop Str.isSpace (List.replicate k 32) ((a.server ++ a.resource) ++ after)
        (by intro c hc; simp [List.mem_replicate] at hc; rw [hc.2]; rfl)
        (by intro c hc; rw [hct] at hc; cases hc; exact hsp0)
      have hd : List.drop (methodName m).length (methodName m ++ (List.replicate k 32 ++ (a.server ++ a.resource)) ++ after) =
          List.replicate k 32 ++ ((a.server ++ a.resource) ++ after) := by
        rw [List.append_assoc, List.drop_left]; simp only [List.append_assoc]
      rw [hd, hsp.1, hsp.2, if_neg (by rw [hct]; simp)]
      have e2 := sub_tail (methodName m ++ List.replicate k 32) (a.server ++ a.resource) after ((methodName m).length + (List.replicate k 32).length)
        (by rw [List.length_append])
      rw [List.append_assoc] at e2
      rw [e2]
      rfl
  unfold fetch
  rw [hmeth, Out.bind_ok]
  have hl' : (a.server ++ a.resource).length < 2 ^ 63 := by
    rw [htext] at hl
    simp only [List.length_append] at hl ⊢
    omega
  exact fetch_plain a h after hl' hafter hr

/-- `@post https://h:81/x` is such an address, and so is `h`. -/
example : fetch ⟨str "@POST https://h:81/x", [0]⟩ = .ok (some ⟨.post, str "https", str "h", 81, str "/x"⟩) ∧
    (⟨some (.post, 1), some (str "https"), str "h", some 81, str "/x"⟩ : Address).Good ∧
    (⟨some (.post, 1), some (str "https"), str "h", some 81, str "/x"⟩ : Address).text = str "@POST https://h:81/x" ∧
    fetch ⟨str "h", [0]⟩ = .ok (some ⟨.get, str "http", str "h", 80, str "/"⟩) := by
  refine ⟨by decide +kernel, ⟨?_, ?_, by decide, ?_, Or.inr rfl, ?_⟩, by decide +kernel, by decide +kernel⟩
  · intro m k h; cases h; decide
  · intro s h; cases h; decide
  · intro n h; cases h; decide
  · intro c h; cases h; decide

/-- **C110 fails** for an address without a scheme: the resource is taken for a part of the name of the host, and `/` is asked
for. -/
theorem path_without_scheme_lost (host path : List Nat) (h1 : 58 ∉ host ++ 47 :: path) (h2 : host.head? ≠ some 64) (hne : host ≠ [])
    (hl : (host ++ 47 :: path).length < 2 ^ 63) (after : List Nat) :
    fetch ⟨host ++ 47 :: path, after⟩ = .ok (some ⟨.get, str "http", host ++ 47 :: path, 80, str "/"⟩) := by
  have hm : urlMethod ⟨host ++ 47 :: path, after⟩ = .ok (some (.get, ⟨host ++ 47 :: path, after⟩)) := by
    unfold urlMethod
    rw [if_neg]
    cases host with
    | nil => exact absurd rfl hne
    | cons c cs => exact h2
  have hf : Str.find (host ++ 47 :: path) (str "://") = .ok none := by
    obtain ⟨⟨r, e, h⟩, _⟩ := Str.search_is_exact_partial (host ++ 47 :: path) (str "://") 0 (by decide) hl
    rw [e, first_none _ r h]
    rintro k ⟨x, y, hxy, _⟩
    apply h1
    rw [hxy]
    simp [str]
  unfold fetch
  rw [hm, Out.bind_ok]
  simp only [hf, lift_ok, Out.bind_ok]
  unfold createSession
  simp only [hf, lift_ok, Out.bind_ok, rindex_missing _ _ h1]
  rw [if_neg (by decide)]

/-- **C110 fails** for a query right after the host: it is taken for a part of the name of the host. -/
theorem query_in_host (s host query : List Nat) (hs : 58 ∉ s ∧ 0 ∉ s ∧ s.head? ≠ some 64 ∧ s ≠ []) (h1 : 58 ∉ host ++ 63 :: query)
    (h2 : 47 ∉ host ++ 63 :: query) (hl : (s ++ str "://" ++ (host ++ 63 :: query)).length < 2 ^ 63) (after : List Nat) :
    fetch ⟨s ++ str "://" ++ (host ++ 63 :: query), after⟩ =
      .ok (some ⟨.get, s, host ++ 63 :: query, if s = str "https" then 443 else 80, str "/"⟩) := by
  have hf := find_found s (host ++ 63 :: query) hs.1 hl
  have hm : urlMethod ⟨s ++ str "://" ++ (host ++ 63 :: query), after⟩ = .ok (some (.get, ⟨s ++ str "://" ++ (host ++ 63 :: query), after⟩)) := by
    unfold urlMethod
    rw [if_neg]
    cases s with
    | nil => exact absurd rfl hs.2.2.2
    | cons c cs => exact hs.2.2.1
  have hl2 : (host ++ 63 :: query).length < 2 ^ 63 := by rw [List.length_append] at hl; omega
  have e2 := sub_tail (s ++ str "://") (host ++ 63 :: query) after (s.length + 3) (by rw [List.length_append]; rfl)
  have e1 : (View.mk (s ++ str "://" ++ (host ++ 63 :: query)) after).sub 0 (s.length : Int) =
      .ok ⟨s, str "://" ++ (host ++ 63 :: query) ++ after⟩ := by
    rw [List.append_assoc s]
    exact sub_head _ _ _ _ rfl
  have hv : Str.viewEq s (str "https") = decide (s = str "https") := by
    rw [Bool.eq_iff_iff, Str.viewEq_iff s _ hs.2.1, decide_eq_true_eq]
  unfold fetch
  rw [hm, Out.bind_ok]
  simp only [hf, lift_ok, Out.bind_ok, e2, index_missing _ _ h2 hl2]
  unfold createSession
  simp only [hf, lift_ok, Out.bind_ok, e1, e2, rindex_missing _ _ h1, hv, decide_eq_true_eq]

/-- `h/x` and `http://h?q` are such addresses. -/
example : fetch ⟨str "h/x", [0]⟩ = .ok (some ⟨.get, str "http", str "h/x", 80, str "/"⟩) ∧
    fetch ⟨str "http://h?q", [0]⟩ = .ok (some ⟨.get, str "http", str "h?q", 80, str "/"⟩) ∧
    (View.mk (str "010") [0]).toi 16 = .ok 8 ∧ (View.mk (str "80") (str "80")).toi 16 = .ub := by decide +kernel

end Verif.Http
