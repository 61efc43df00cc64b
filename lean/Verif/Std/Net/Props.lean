import Verif.Std.Net.Model

/-! # Properties of addresses, local interfaces and name lookup -/

namespace Verif.Net

/-! ## Bytes -/

theorem put16_apply (a : Addr) (o v i : Nat) :
    put16 a o v i = if i = o then v % 256 else if i = o + 1 then v / 256 % 256 else a i := by
  unfold put16 put
  by_cases h : i = o
  · subst h; simp
  · by_cases h2 : i = o + 1
    · subst h2; simp
    · rw [if_neg h, if_neg h2, if_neg]
      simp only [List.length_cons, List.length_nil]
      omega

theorem get16_put16 (a : Addr) (o v : Nat) (hv : v < 65536) : get16 (put16 a o v) o = v := by
  unfold get16
  simp only [put16_apply, if_true]
  rw [if_neg (by omega)]
  omega

theorem get16_put16_ne (a : Addr) (o o' v : Nat) (h : o + 1 < o' ∨ o' + 1 < o) :
    get16 (put16 a o v) o' = get16 a o' := by
  unfold get16
  simp only [put16_apply]
  rw [if_neg (by omega), if_neg (by omega), if_neg (by omega), if_neg (by omega)]

theorem get16_put_ne (a : Addr) (o o' : Nat) (l : List Nat) (h : o + l.length ≤ o' ∨ o' + 1 < o) :
    get16 (put a o l) o' = get16 a o' := by
  unfold get16 put
  rw [if_neg (by omega), if_neg (by omega)]

theorem get_put16_ne (a : Addr) (o o' n v : Nat) (h : o + 1 < o' ∨ o' + n ≤ o) :
    get (put16 a o v) o' n = get a o' n := by
  unfold get
  apply List.map_congr_left
  intro i hi
  have := List.mem_range.mp hi
  simp only [put16_apply]
  rw [if_neg (by omega), if_neg (by omega)]

theorem get_put (a : Addr) (o : Nat) (l : List Nat) : get (put a o l) o l.length = l := by
  unfold get put
  apply List.ext_getElem
  · simp
  · intro i h1 h2
    simp only [List.length_map, List.length_range] at h1
    simp [h2]

theorem htons_lt (x : Nat) : htons x < 65536 := by unfold htons; omega

theorem htons_htons (x : Nat) (h : x < 65536) : htons (htons x) = x := by
  unfold htons
  have h1 : (x % 256 * 256 + x / 256 % 256) / 256 = x % 256 := by omega
  have h2 : (x % 256 * 256 + x / 256 % 256) % 256 = x / 256 := by omega
  rw [h1, h2]
  omega

/-! ## Literals -/

/-- what the C library promises: an address has four or sixteen bytes, and printing never fails with
the buffers used -/
structure Lib.Good (L : Lib) : Prop where
  len4 : ∀ t h, L.pton4 t = some h → h.length = 4
  len6 : ∀ t h, L.pton6 t = some h → h.length = 16
  out4 : ∀ h, h.length = 4 → ∃ t, L.ntop4 h = some t
  out6 : ∀ h, h.length = 16 → ∃ t, L.ntop6 h = some t

/-- Specification: a user's view of an address. -/
inductive View where
  | v4 (host : List Nat) (port : Nat)
  | v6 (host : List Nat) (port : Nat)
  deriving DecidableEq, Repr

/-- the address has this view: what can be observed of it through its members, and the port in the
order the system wants, high byte first -/
def Shows (a : Addr) : View → Prop
  | .v4 h p => isSet a = true ∧ family a = 2 ∧ get a 4 4 = h ∧ port a = p ∧ len a = 16 ∧ get a 2 2 = [p / 256, p % 256]
  | .v6 h p => isSet a = true ∧ family a = 10 ∧ get a 8 16 = h ∧ port a = p ∧ len a = 28 ∧ get a 2 2 = [p / 256, p % 256]

theorem wire (a : Addr) (p : Nat) (hp : p < 65536) : get (put16 a 2 (htons p)) 2 2 = [p / 256, p % 256] := by
  have h1 : htons p % 256 = p / 256 := by unfold htons; omega
  have h2 : htons p / 256 % 256 = p % 256 := by
    unfold htons
    have h3 : (p % 256 * 256 + p / 256 % 256) / 256 = p % 256 := by omega
    rw [h3]
    omega
  rw [← h1, ← h2]
  rfl

theorem shows4 (a : Addr) (h : List Nat) (p : Nat) (hl : h.length = 4) (hp : p < 65536) :
    Shows (put16 (put16 (put a 4 h) 0 afInet) 2 (htons p)) (.v4 h p) := by
  have hf : family (put16 (put16 (put a 4 h) 0 afInet) 2 (htons p)) = 2 := by
    unfold family
    rw [get16_put16_ne _ _ _ _ (by omega), get16_put16 _ _ _ (by decide)]
    rfl
  refine ⟨by simp [isSet, hf, afUnspec], hf, ?_, ?_, by unfold len; rw [hf]; rfl, wire _ _ hp⟩
  · rw [get_put16_ne _ _ _ _ _ (by omega), get_put16_ne _ _ _ _ _ (by omega)]
    have := get_put a 4 h
    rwa [hl] at this
  · unfold port
    rw [get16_put16 _ _ _ (htons_lt p), htons_htons p hp]
    simp

theorem shows6 (a : Addr) (h : List Nat) (p : Nat) (hl : h.length = 16) (hp : p < 65536) :
    Shows (put16 (put16 (put a 8 h) 0 afInet6) 2 (htons p)) (.v6 h p) := by
  have hf : family (put16 (put16 (put a 8 h) 0 afInet6) 2 (htons p)) = 10 := by
    unfold family
    rw [get16_put16_ne _ _ _ _ (by omega), get16_put16 _ _ _ (by decide)]
    rfl
  refine ⟨by simp [isSet, hf, afUnspec], hf, ?_, ?_, by unfold len; rw [hf]; rfl, wire _ _ hp⟩
  · rw [get_put16_ne _ _ _ _ _ (by omega), get_put16_ne _ _ _ _ _ (by omega)]
    have := get_put a 8 h
    rwa [hl] at this
  · unfold port
    rw [get16_put16 _ _ _ (htons_lt p), htons_htons p hp]
    simp

theorem isSet_unspec (a : Addr) : isSet (put16 a 0 afUnspec) = false := by
  unfold isSet family
  rw [get16_put16 _ _ _ (by decide)]
  simp

/-- Specification: what a text means as an address when addresses of the given kinds are wanted; an
IPv4 address is preferred. -/
def meaning (L : Lib) (ip : List Nat) (p : Nat) (mode : Mode) : Option View :=
  match (if mode ≠ .v6 then L.pton4 ip else none), (if mode ≠ .v4 then L.pton6 ip else none) with
  | some h, _ => some (.v4 h p)
  | none, some h => some (.v6 h p)
  | none, none => none

/-- **C210 (first part).** An address made from a text is set exactly when the text is an address of a
wanted kind, and then it has that host and the port given, whatever its bytes held before. -/
theorem literal_shows {L : Lib} (hL : L.Good) (a : Addr) (ip : List Nat) (p : Nat) (hp : p < 65536) (mode : Mode) :
    match meaning L ip p mode with
    | some v => Shows (literal L a ip p mode) v
    | none => isSet (literal L a ip p mode) = false := by
  cases mode with
  | any =>
    cases h4 : L.pton4 ip with
    | some h =>
      simp only [meaning, literal, parseIpv4, h4]
      exact shows4 _ _ _ (hL.len4 _ _ h4) hp
    | none =>
      cases h6 : L.pton6 ip with
      | some h =>
        simp only [meaning, literal, parseIpv4, parseIpv6, h4, h6]
        exact shows6 _ _ _ (hL.len6 _ _ h6) hp
      | none =>
        simp only [meaning, literal, parseIpv4, parseIpv6, h4, h6]
        exact isSet_unspec _
  | v4 =>
    cases h4 : L.pton4 ip with
    | some h =>
      simp only [meaning, literal, parseIpv4, h4]
      exact shows4 _ _ _ (hL.len4 _ _ h4) hp
    | none =>
      simp only [meaning, literal, parseIpv4, h4]
      exact isSet_unspec _
  | v6 =>
    cases h6 : L.pton6 ip with
    | some h =>
      simp only [meaning, literal, parseIpv6, h6]
      exact shows6 _ _ _ (hL.len6 _ _ h6) hp
    | none =>
      simp only [meaning, literal, parseIpv6, h6]
      exact isSet_unspec _

/-- Specification: the text of an address, host and port separated by a colon. -/
def View.text (L : Lib) : View → Option (List Nat)
  | .v4 h p => (L.ntop4 h).map (· ++ [58] ++ (decimal p).map BitVec.toNat)
  | .v6 h p => (L.ntop6 h).map (· ++ [58] ++ (decimal p).map BitVec.toNat)

theorem get_length (a : Addr) (o n : Nat) : (get a o n).length = n := by simp [get]

/-- **C210 (second part).** An address that is set prints as its host and its port. -/
theorem set_address_prints {L : Lib} (hL : L.Good) (a : Addr) (v : View) (h : Shows a v) :
    v.text L = some (str L a) := by
  cases v with
  | v4 host p =>
    obtain ⟨_, hf, hh, hp, _⟩ := h
    obtain ⟨t, ht⟩ := hL.out4 host (by rw [← hh, get_length])
    simp only [View.text, str, hf, afInet, if_true, hh, ht, hp, Option.map_some]
  | v6 host p =>
    obtain ⟨_, hf, hh, hp, _⟩ := h
    obtain ⟨t, ht⟩ := hL.out6 host (by rw [← hh, get_length])
    simp only [View.text, str, hf, afInet, hh, ht, hp, Option.map_some]
    simp

theorem decimal_no_colon (n : Nat) : 58 ∉ (decimal n).map BitVec.toNat := by
  intro h
  obtain ⟨b, hb, he⟩ := List.mem_map.mp h
  have := decimal_digits n b hb
  unfold isDigitByte at this
  simp only [Bool.and_eq_true, decide_eq_true_eq] at this
  omega

theorem last_colon {x y u v : List Nat} (hy : 58 ∉ y) (hv : 58 ∉ v) (h : x ++ [58] ++ y = u ++ [58] ++ v) : y = v := by
  have h2 : y.reverse ++ 58 :: x.reverse = v.reverse ++ 58 :: u.reverse := by
    have := congrArg List.reverse h
    simpa using this
  have key : ∀ (p q r s : List Nat), 58 ∉ p → 58 ∉ q → p ++ 58 :: r = q ++ 58 :: s → p = q := by
    intro p
    induction p with
    | nil =>
      intro q r s _ hq he
      cases q with
      | nil => rfl
      | cons c q => simp at he; exact absurd he.1 (fun e => hq (by rw [e]; simp))
    | cons c p ih =>
      intro q r s hp hq he
      cases q with
      | nil => simp at he; exact absurd he.1 (fun e => hp (by rw [← e]; simp))
      | cons d q =>
        simp only [List.cons_append, List.cons.injEq] at he
        rw [he.1, ih q r s (fun m => hp (List.mem_cons_of_mem _ m)) (fun m => hq (List.mem_cons_of_mem _ m)) he.2]
  have := key _ _ _ _ (by simpa using hy) (by simpa using hv) h2
  simpa using congrArg List.reverse this

/-- **C210, what fails.** An address that is not set never prints as "0.0.0.0:0000", the text meant for
it: its bytes are printed as if they were an IPv6 address, whatever they hold. -/
theorem unset_prints_bytes {L : Lib} (hL : L.Good) (a : Addr) (h : isSet a = false) :
    ∃ t, L.ntop6 (get a 8 16) = some t ∧ str L a = t ++ [58] ++ (decimal (port a)).map BitVec.toNat ∧
      str L a ≠ noAddress := by
  have hf : family a = 0 := by
    unfold isSet at h
    exact Decidable.not_not.mp (of_decide_eq_false h)
  obtain ⟨t, ht⟩ := hL.out6 (get a 8 16) (get_length _ _ _)
  have hs : str L a = t ++ [58] ++ (decimal (port a)).map BitVec.toNat := by
    simp [str, hf, afInet, ht]
  refine ⟨t, ht, hs, ?_⟩
  rw [hs]
  intro he
  have h2 := last_colon (u := [48, 46, 48, 46, 48, 46, 48]) (v := [48, 48, 48, 48]) (decimal_no_colon _) (by decide) he
  by_cases hp : port a < 10
  · rw [decimal_eq, if_pos hp] at h2
    simp at h2
  · have hv := congrArg (fun l => l.map (BitVec.ofNat 8)) h2
    simp only [List.map_map] at hv
    have hid : (BitVec.ofNat 8 ∘ BitVec.toNat) = (id : BitVec 8 → BitVec 8) := by
      funext b; simp
    rw [hid, List.map_id] at hv
    have hval := congrArg decimalValue hv
    rw [decimalValue_decimal] at hval
    have : decimalValue (List.map (BitVec.ofNat 8) [48, 48, 48, 48]) = 0 := by decide
    omega

/-- **C210 (third part).** The address for all interfaces. -/
theorem wildcard_shows (a : Addr) (p : Nat) (hp : p < 65536) (mode : Mode) :
    Shows (wildcard a p mode) (if mode = .v6 then .v6 (List.replicate 16 0) p else .v4 [0, 0, 0, 0] p) := by
  unfold wildcard
  by_cases hm : mode = .v6
  · rw [if_pos hm, if_neg (by rw [hm]; simp)]
    have hf : family (put16 (put (put16 a 0 afInet6) 8 (List.replicate 16 0)) 2 (htons p)) = 10 := by
      unfold family
      rw [get16_put16_ne _ _ _ _ (by omega), get16_put_ne _ _ _ _ (by omega), get16_put16 _ _ _ (by decide)]
      rfl
    refine ⟨by unfold isSet; rw [hf]; rfl, hf, ?_, ?_, by unfold len; rw [hf]; rfl, wire _ _ hp⟩
    · rw [get_put16_ne _ _ _ _ _ (by omega)]
      exact get_put _ 8 (List.replicate 16 0)
    · unfold port
      rw [get16_put16 _ _ _ (htons_lt p), htons_htons p hp]
      simp
  · rw [if_neg hm, if_pos (by cases mode <;> simp at hm ⊢)]
    have hf : family (put16 (put (put16 a 0 afInet) 4 [0, 0, 0, 0]) 2 (htons p)) = 2 := by
      unfold family
      rw [get16_put16_ne _ _ _ _ (by omega), get16_put_ne _ _ _ _ (by omega), get16_put16 _ _ _ (by decide)]
      rfl
    refine ⟨by simp [isSet, hf, afUnspec], hf, ?_, ?_, by unfold len; rw [hf]; rfl, wire _ _ hp⟩
    · rw [get_put16_ne _ _ _ _ _ (by omega)]
      exact get_put _ 4 [0, 0, 0, 0]
    · unfold port
      rw [get16_put16 _ _ _ (htons_lt p), htons_htons p hp]
      simp

/-! ## Interfaces -/

/-- Specification: the IP addresses of an interface, in the order of the system. -/
def own (name : List Nat) (ifs : List Iface) : List (Nat × List Nat) :=
  ifs.filterMap fun it =>
    match it.addr with
    | some (fam, sa) => if it.name = name ∧ (fam = 2 ∨ fam = 10) then some (fam, sa) else none
    | none => none

/-- Specification: the first address of a family. -/
def firstOf (fam : Nat) (l : List (Nat × List Nat)) : Option (List Nat) := (l.find? fun e => e.1 == fam).map (·.2)

/-- Specification: the view of the bytes of a `struct sockaddr`, with another port. -/
def viewOf (fam : Nat) (sa : List Nat) (p : Nat) : View :=
  if fam = 2 then .v4 ((sa.drop 4).take 4) p else .v6 ((sa.drop 8).take 16) p

/-- Specification: the address wanted from a list of addresses; IPv4 is preferred. -/
def wanted (l : List (Nat × List Nat)) (p : Nat) (mode : Mode) : Option View :=
  match (if mode ≠ .v6 then firstOf 2 l else none), (if mode ≠ .v4 then firstOf 10 l else none) with
  | some sa, _ => some (viewOf 2 sa p)
  | none, some sa => some (viewOf 10 sa p)
  | none, none => none

/-- the system gives complete addresses whose first bytes are the family -/
def Complete (fam : Nat) (sa : List Nat) : Prop :=
  (fam = 2 → 16 ≤ sa.length ∧ sa.take 2 = [2, 0]) ∧ (fam = 10 → 28 ≤ sa.length ∧ sa.take 2 = [10, 0])

/-- the loop, over the addresses of the interface only -/
def scanOwn : List (Nat × List Nat) → Option (List Nat) → Option (List Nat) →
    Out (Option (List Nat) × Option (List Nat))
  | [], v4, v6 => .ok (v4, v6)
  | (fam, sa) :: rest, v4, v6 =>
    if fam = 2 then
      if v4.isSome then .abort else if v6.isSome then .ok (some sa, v6) else scanOwn rest (some sa) v6
    else if v6.isSome then .abort else if v4.isSome then .ok (v4, some sa) else scanOwn rest v4 (some sa)

theorem scan_own (name : List Nat) : ∀ ifs v4 v6, (v4.isSome && v6.isSome) = false →
    scan name ifs v4 v6 = scanOwn (own name ifs) v4 v6 := by
  intro ifs
  induction ifs with
  | nil => intro v4 v6 _; rfl
  | cons it rest ih =>
    intro v4 v6 hb
    rw [scan, own, List.filterMap_cons]
    cases ha : it.addr with
    | none => exact ih v4 v6 hb
    | some e =>
      obtain ⟨fam, sa⟩ := e
      simp only
      by_cases hn : it.name = name
      · rw [if_neg (by simpa using hn)]
        by_cases h2 : fam = 2
        · subst h2
          simp only [afInet, if_true, hn, true_and, true_or]
          rw [scanOwn, if_pos rfl]
          cases v4 with
          | some x => simp
          | none =>
            simp only [Option.isSome_none, Bool.false_eq_true, if_false, Out.bind_ok, Option.isSome_some, Bool.true_and]
            by_cases h6 : v6.isSome = true
            · rw [if_pos h6, if_pos h6]
            · rw [if_neg h6, if_neg h6]
              exact ih _ _ (by simpa using h6)
        · by_cases h6 : fam = 10
          · subst h6
            simp only [afInet, afInet6, hn, true_and]
            simp only [show ¬ (10 = 2) by omega, if_false, if_true, or_true]
            rw [scanOwn, if_neg (show ¬ (10 : Nat) = 2 by omega)]
            cases v6 with
            | some x => simp
            | none =>
              simp only [Option.isSome_none, Bool.false_eq_true, if_false, Out.bind_ok, Option.isSome_some, Bool.and_true]
              by_cases h4 : v4.isSome = true
              · rw [if_pos h4, if_pos h4]
              · rw [if_neg h4, if_neg h4]
                exact ih _ _ (by simpa using h4)
          · simp only [afInet, afInet6, h2, h6, if_false, Out.bind_ok, hb, or_self, and_false]
            exact ih v4 v6 hb
      · rw [if_pos hn]
        simp only [hn, false_and, if_false]
        exact ih v4 v6 hb

theorem own_family {name : List Nat} {ifs : List Iface} {e : Nat × List Nat} (h : e ∈ own name ifs) :
    (e.1 = 2 ∨ e.1 = 10) ∧ ∃ it ∈ ifs, it.addr = some e := by
  unfold own at h
  obtain ⟨it, hit, he⟩ := List.mem_filterMap.mp h
  cases ha : it.addr with
  | none => rw [ha] at he; simp at he
  | some x =>
    rw [ha] at he
    simp only at he
    split at he
    · rename_i hc
      simp only [Option.some.injEq] at he
      refine ⟨?_, it, hit, by rw [ha, ← he]⟩
      rw [← he]; exact hc.2
    · cases he

/-- what the loop finds in a list of addresses that does not begin with two of a kind -/
theorem scanOwn_found : ∀ (l : List (Nat × List Nat)), (∀ e ∈ l, e.1 = 2 ∨ e.1 = 10) →
    (scanOwn l none none = .abort ↔ ∃ x y rest, l = x :: y :: rest ∧ x.1 = y.1) ∧
    ((¬ ∃ x y rest, l = x :: y :: rest ∧ x.1 = y.1) →
      scanOwn l none none = .ok (firstOf 2 l, firstOf 10 l)) := by
  intro l hl
  match l, hl with
  | [], _ => exact ⟨by simp [scanOwn], fun _ => rfl⟩
  | [(f, sa)], hl =>
    rcases hl (f, sa) (by simp) with h | h <;> (simp only at h; subst h; exact ⟨by simp [scanOwn], fun _ => by simp [scanOwn, firstOf]⟩)
  | (f, sa) :: (g, sb) :: rest, hl =>
    have h1 := hl (f, sa) (by simp)
    have h2 := hl (g, sb) (by simp)
    simp only at h1 h2
    constructor
    · constructor
      · intro h
        refine ⟨_, _, _, rfl, ?_⟩
        rcases h1 with h1 | h1 <;> rcases h2 with h2 | h2 <;> subst h1 <;> subst h2 <;> simp [scanOwn] at h ⊢
      · rintro ⟨x, y, r, he, hxy⟩
        simp only [List.cons.injEq] at he
        obtain ⟨rfl, rfl, _⟩ := he
        simp only at hxy
        rcases h1 with h1 | h1 <;> rcases h2 with h2 | h2 <;> subst h1 <;> subst h2 <;> simp [scanOwn] at hxy ⊢
    · intro hne
      have hfg : f ≠ g := fun h => hne ⟨_, _, _, rfl, h⟩
      rcases h1 with h1 | h1 <;> rcases h2 with h2 | h2 <;> subst h1 <;> subst h2 <;> simp [scanOwn, firstOf] at hfg ⊢

theorem get_put_sub (a : Addr) (l : List Nat) (o n : Nat) (h : o + n ≤ l.length) :
    get (put a 0 l) o n = (l.drop o).take n := by
  unfold get put
  apply List.ext_getElem
  · simp; omega
  · intro i h1 h2
    simp only [List.length_map, List.length_range] at h1
    have : o + i < l.length := by omega
    simp [this]

theorem get16_put_zero (a : Addr) (l : List Nat) (x y : Nat) (h : l.take 2 = [x, y]) :
    get16 (put a 0 l) 0 = x + 256 * y := by
  match l, h with
  | u :: v :: rest, h =>
    simp only [List.take_succ_cons, List.take_zero, List.cons.injEq, and_true] at h
    unfold get16 put
    simp [h.1, h.2]

theorem shows_copied4 (a : Addr) (sa : List Nat) (p : Nat) (hp : p < 65536) (hs : Complete 2 sa) :
    Shows (put16 (put a 0 (sa.take 16)) 2 (htons p)) (viewOf 2 sa p) := by
  obtain ⟨hl, ht⟩ := hs.1 rfl
  have hf : family (put16 (put a 0 (sa.take 16)) 2 (htons p)) = 2 := by
    unfold family
    rw [get16_put16_ne _ _ _ _ (by omega), get16_put_zero _ _ 2 0 (by rw [List.take_take]; simpa using ht)]
  show Shows _ (.v4 _ p)
  refine ⟨by simp [isSet, hf, afUnspec], hf, ?_, ?_, by unfold len; rw [hf]; rfl, wire _ _ hp⟩
  · rw [get_put16_ne _ _ _ _ _ (by omega), get_put_sub _ _ _ _ (by simp; omega), List.drop_take, List.take_take]
    rfl
  · unfold port
    rw [get16_put16 _ _ _ (htons_lt p), htons_htons p hp]
    simp

theorem shows_copied6 (a : Addr) (sa : List Nat) (p : Nat) (hp : p < 65536) (hs : Complete 10 sa) :
    Shows (put16 (put a 0 (sa.take 28)) 2 (htons p)) (viewOf 10 sa p) := by
  obtain ⟨hl, ht⟩ := hs.2 rfl
  have hf : family (put16 (put a 0 (sa.take 28)) 2 (htons p)) = 10 := by
    unfold family
    rw [get16_put16_ne _ _ _ _ (by omega), get16_put_zero _ _ 10 0 (by rw [List.take_take]; simpa using ht)]
  show Shows _ (.v6 _ p)
  refine ⟨by simp [isSet, hf, afUnspec], hf, ?_, ?_, by unfold len; rw [hf]; rfl, wire _ _ hp⟩
  · rw [get_put16_ne _ _ _ _ _ (by omega), get_put_sub _ _ _ _ (by simp; omega), List.drop_take, List.take_take]
    rfl
  · unfold port
    rw [get16_put16 _ _ _ (htons_lt p), htons_htons p hp]
    simp

theorem firstOf_mem {f : Nat} {l : List (Nat × List Nat)} {sa : List Nat} (h : firstOf f l = some sa) : (f, sa) ∈ l := by
  unfold firstOf at h
  obtain ⟨e, he, hs⟩ := Option.map_eq_some_iff.mp h
  have h1 := List.mem_of_find?_eq_some he
  have h2 := List.find?_some he
  have h3 : e.1 = f := by simpa using h2
  rw [← h3, ← hs]
  exact h1

theorem choose_shows (a : Addr) (ha : isSet a = false) (p : Nat) (hp : p < 65536) (mode : Mode) (l : List (Nat × List Nat))
    (hl : ∀ e ∈ l, Complete e.1 e.2) :
    match wanted l p mode with
    | some v => Shows (choose a p mode (firstOf 2 l) (firstOf 10 l)) v
    | none => isSet (choose a p mode (firstOf 2 l) (firstOf 10 l)) = false := by
  have c4 : ∀ sa, firstOf 2 l = some sa → Complete 2 sa := fun sa h => hl _ (firstOf_mem h)
  have c6 : ∀ sa, firstOf 10 l = some sa → Complete 10 sa := fun sa h => hl _ (firstOf_mem h)
  cases h4 : firstOf 2 l <;> cases h6 : firstOf 10 l <;> cases mode <;>
    simp only [wanted, choose, h4, h6, ne_eq, reduceCtorEq, not_true_eq_false, not_false_eq_true, if_true, if_false] <;>
    first
      | exact ha
      | exact shows_copied4 _ _ _ hp (c4 _ h4)
      | exact shows_copied6 _ _ _ hp (c6 _ h6)

/-- **C211.** For a name that is no address: the program is aborted exactly when the first two
addresses of the interface are of the same family. Otherwise the result is the first address of a
wanted family, IPv4 preferred, with the port given, and it is not set when there is none. -/
theorem local_address {L : Lib} (hL : L.Good) (ifs : List Iface) (a : Addr) (name : List Nat) (p : Nat)
    (hp : p < 65536) (mode : Mode) (hname : name ≠ []) (hlit : meaning L name p mode = none)
    (hc : ∀ it ∈ ifs, ∀ e, it.addr = some e → Complete e.1 e.2) :
    (localAddress L ifs a name p mode = .abort ↔
      ∃ x y rest, own name ifs = x :: y :: rest ∧ x.1 = y.1) ∧
    ((¬ ∃ x y rest, own name ifs = x :: y :: rest ∧ x.1 = y.1) →
      ∃ r, localAddress L ifs a name p mode = .ok r ∧
        match wanted (own name ifs) p mode with
        | some v => Shows r v
        | none => isSet r = false) := by
  have hn := literal_shows hL a name p hp mode
  rw [hlit] at hn
  simp only at hn
  have hs := scan_own name ifs none none rfl
  obtain ⟨h1, h2⟩ := scanOwn_found (own name ifs) (fun e he => (own_family he).1)
  unfold localAddress
  rw [if_neg hname]
  simp only [hn, Bool.false_eq_true, if_false, hs]
  constructor
  · constructor
    · intro h
      apply h1.mp
      cases hsc : scanOwn (own name ifs) none none with
      | ok b => rw [hsc] at h; cases h
      | abort => rfl
      | ub => rw [hsc] at h; cases h
      | diverge => rw [hsc] at h; cases h
    · intro h
      rw [h1.mpr h]
      rfl
  · intro h
    rw [h2 h]
    refine ⟨_, rfl, choose_shows _ hn p hp mode _ ?_⟩
    intro e he
    obtain ⟨_, it, hit, hie⟩ := own_family he
    exact hc it hit e hie

/-! ## Cases -/

/-- a small library: four or sixteen bytes are the text of the address with these bytes -/
def toy : Lib :=
  ⟨fun t => if t.length = 4 then some t else none, fun t => if t.length = 16 then some t else none, some, some⟩

theorem toy_good : toy.Good :=
  ⟨fun t h e => by simp only [toy] at e; split at e <;> simp_all, fun t h e => by simp only [toy] at e; split at e <;> simp_all,
    fun h _ => ⟨h, rfl⟩, fun h _ => ⟨h, rfl⟩⟩

example : meaning toy [1, 2, 3, 4] 8080 .any = some (.v4 [1, 2, 3, 4] 8080) := by decide
example : meaning toy [1, 2, 3, 4] 8080 .v6 = none := by decide
example : Shows (literal toy (fun _ => 255) [1, 2, 3, 4] 8080 .any) (.v4 [1, 2, 3, 4] 8080) :=
  literal_shows toy_good (fun _ => 255) [1, 2, 3, 4] 8080 (by omega) .any
example : str toy (literal toy (fun _ => 255) [49, 50, 51, 52] 80 .any) = [49, 50, 51, 52, 58, 56, 48] := by decide
example : str toy (unset fun _ => 65) = List.replicate 16 65 ++ [58, 49, 54, 55, 48, 53] := by decide

/-- an interface with an IPv4 and an IPv6 address -/
def eth : List Iface :=
  [⟨[1], none⟩, ⟨[1], some (2, 2 :: 0 :: List.replicate 14 9)⟩, ⟨[2], some (2, 2 :: 0 :: List.replicate 14 8)⟩,
   ⟨[1], some (10, 10 :: 0 :: List.replicate 26 7)⟩]

example : wanted (own [1] eth) 80 .any = some (.v4 [9, 9, 9, 9] 80) ∧
    wanted (own [1] eth) 80 .v6 = some (.v6 (List.replicate 16 7) 80) ∧ wanted (own [3] eth) 80 .any = none := by decide
example : ∀ it ∈ eth, ∀ e, it.addr = some e → Complete e.1 e.2 := by
  simp only [eth, Complete]
  intro it hit e he
  simp only [List.mem_cons, List.not_mem_nil, or_false] at hit
  rcases hit with rfl | rfl | rfl | rfl <;> simp at he <;> subst he <;> simp
/-- an interface with two IPv4 addresses -/
example : ∃ x y rest, own [1] [⟨[1], some (2, [2, 0])⟩, ⟨[1], some (2, [2, 0])⟩] = x :: y :: rest ∧ x.1 = y.1 :=
  ⟨_, _, _, rfl, rfl⟩

end Verif.Net
