import Verif.Std.Http.Server
/-! # Assembling a request from the parser's callbacks (C109)

Source: /repo/src/cxy/stdlib/http.cxy 399-410 and 487-598 (`Request`, `clear`, the `requestParserOn...` callbacks); the callbacks of
a client's response (fetch.cxy 471-514 `responseParserOn...`, 418-431 `onBodyPart` without a writer) are the same text except that there is
no `onMessageBegin` and no `onUrl`.

Simplified: the parser itself (llhttp) is not modelled; it appears as the list of calls it makes.  Strings are lists of bytes, a null
string is `none`; the header map is a list of pairs (`putHeader`, `headerOf`).  Callbacks return 0, except where an assertion fails. -/
namespace Verif.Http

/-- http.cxy 400-407: the members the callbacks write. -/
structure Incoming where
  headers : List (List Nat × List Nat)
  path : Option (List Nat)
  body : Option (List Nat)
  s1 : Option (List Nat)
  s2 : Option (List Nat)
  isComplete : Bool

/-- One call made by the parser. -/
inductive Call where
  | messageBegin
  | url (p : List Nat)
  | headerField (p : List Nat)
  | headerValue (p : List Nat)
  | headersComplete
  | body (p : List Nat)
  | messageComplete

/-- http.cxy 487-498 `clear` -/
def Incoming.clear (_ : Incoming) : Incoming := ⟨[], none, none, none, none, false⟩

/-- `if (s == null) s = String(at, len) else s << __string(at, len)` -/
def extend (s : Option (List Nat)) (p : List Nat) : Option (List Nat) :=
  match s with
  | none => some p
  | some t => some (t ++ p)

/-- http.cxy 512-590: the callbacks.  Storing a header whose name is null is undefined. -/
def Incoming.call (r : Incoming) : Call → Out Incoming
  | .messageBegin => .ok r.clear
  | .url p => .ok { r with path := extend r.path p }
  | .headerField p =>
    (match r.s2 with
      | none => Out.ok r
      | some v => match r.s1 with
        | none => .abort
        | some k => .ok { r with headers := putHeader k v r.headers, s1 := none, s2 := none }).bind fun r =>
    .ok { r with s1 := extend r.s1 p }
  | .headerValue p =>
    match r.s1 with
    | none => .abort
    | some _ => .ok { r with s2 := extend r.s2 p }
  | .headersComplete =>
    match r.s1 with
    | none => .ok r
    | some k => match r.s2 with
      | none => .ub
      | some v => .ok { r with headers := putHeader k v r.headers, s1 := none, s2 := none }
  | .body p => .ok { r with body := extend r.body p }
  | .messageComplete => .ok { r with isComplete := true }

/-- The calls in order. -/
def Incoming.calls (r : Incoming) : List Call → Out Incoming
  | [] => .ok r
  | c :: cs => (r.call c).bind fun r => r.calls cs

/-! ## Specification -/

/-- A text and the pieces it comes in. -/
def Pieces (t : List Nat) (ps : List (List Nat)) : Prop := ps ≠ [] ∧ ps.flatten = t

/-- The calls for a header: at least one for the name, then at least one for the value. -/
def HeaderCalls (h : List Nat × List Nat) (cs : List Call) : Prop :=
  ∃ ks vs, Pieces h.1 ks ∧ Pieces h.2 vs ∧ cs = ks.map Call.headerField ++ vs.map Call.headerValue

/-- The calls for headers, one after the other. -/
inductive HeadersCalls : List (List Nat × List Nat) → List Call → Prop where
  | nil : HeadersCalls [] []
  | cons {h hs c cs} : HeaderCalls h c → HeadersCalls hs cs → HeadersCalls (h :: hs) (c ++ cs)

/-- The calls a parser makes for a request with this target, these headers and this content, however the bytes
arrive. -/
def RequestCalls (target : List Nat) (headers : List (List Nat × List Nat)) (content : List Nat) (cs : List Call) : Prop :=
  ∃ (us : List (List Nat)) (hs : List Call) (bs : List (List Nat)), Pieces target us ∧ HeadersCalls headers hs ∧ bs.flatten = content ∧
    cs = .messageBegin :: (us.map Call.url ++ hs ++ .headersComplete :: (bs.map Call.body ++ [.messageComplete]))

/-- Letters without regard to case. -/
def sameLetter (a b : Nat) : Prop := a = b ∨ (97 ≤ a ∧ a ≤ 122 ∧ b + 32 = a) ∨ (97 ≤ b ∧ b ≤ 122 ∧ a + 32 = b)

/-- Names without regard to case. -/
def SameName : List Nat → List Nat → Prop
  | [], [] => True
  | a :: as, b :: bs => sameLetter a b ∧ SameName as bs
  | _, _ => False

/-- The value is that of the last header with the name. -/
def LastValue (name : List Nat) (hs : List (List Nat × List Nat)) : Option (List Nat) → Prop
  | none => ∀ h ∈ hs, ¬ SameName h.1 name
  | some v => ∃ a k b, hs = a ++ (k, v) :: b ∧ SameName k name ∧ ∀ h ∈ b, ¬ SameName h.1 name

/-! ## Proofs -/

theorem sameLetter_upper (a b : Nat) : sameLetter a b ↔ upper a = upper b := by
  unfold sameLetter upper
  split <;> split <;> omega

theorem sameName_upper : ∀ a b : List Nat, SameName a b ↔ a.map upper = b.map upper
  | [], [] => by simp [SameName]
  | [], _ :: _ => by simp [SameName]
  | _ :: _, [] => by simp [SameName]
  | a :: as, b :: bs => by simp [SameName, sameLetter_upper, sameName_upper as bs]

theorem headerOf_put (name k v : List Nat) : ∀ hs, headerOf name (putHeader k v hs) = if k.map upper = name.map upper then some v else headerOf name hs
  | [] => by by_cases h : k.map upper = name.map upper <;> simp [putHeader, headerOf, List.find?, h]
  | (k', v') :: hs => by
    have ih := headerOf_put name k v hs
    rw [putHeader]
    by_cases h1 : k'.map upper = k.map upper
    · rw [if_pos h1]
      by_cases h2 : k.map upper = name.map upper
      · simp [headerOf, List.find?, h1, h2]
      · simp [headerOf, List.find?, h1, h2]
    · rw [if_neg h1]
      by_cases h3 : k'.map upper = name.map upper
      · have h2 : ¬ k.map upper = name.map upper := fun e => h1 (h3.trans e.symm)
        simp [headerOf, List.find?, h3, h2]
      · have : ∀ l, headerOf name ((k', v') :: l) = headerOf name l := by
          intro l; simp [headerOf, List.find?, h3]
        rw [this, this, ih]

/-- The headers after storing them in order. -/
def putAll (hs : List (List Nat × List Nat)) (acc : List (List Nat × List Nat)) : List (List Nat × List Nat) :=
  hs.foldl (fun acc h => putHeader h.1 h.2 acc) acc

theorem putAll_last (name : List Nat) : ∀ hs acc, (LastValue name hs (headerOf name (putAll hs acc))) ∨
    ((∀ h ∈ hs, ¬ SameName h.1 name) ∧ headerOf name (putAll hs acc) = headerOf name acc)
  | [], acc => Or.inr ⟨by simp, rfl⟩
  | h :: hs, acc => by
    rcases putAll_last name hs (putHeader h.1 h.2 acc) with hl | ⟨hno, he⟩
    · left
      show LastValue name (h :: hs) (headerOf name (putAll hs (putHeader h.1 h.2 acc)))
      cases hv : headerOf name (putAll hs (putHeader h.1 h.2 acc)) with
      | none =>
        -- a stored value never disappears, so the header itself has another name
        rw [hv] at hl
        intro g hg
        rcases List.mem_cons.1 hg with rfl | hg
        · intro hs'
          have hkeep : ∀ (l : List (List Nat × List Nat)) acc, (headerOf name acc).isSome → (headerOf name (putAll l acc)).isSome := by
            intro l
            induction l with
            | nil => intro acc h; exact h
            | cons x xs ih =>
              intro acc h
              refine ih _ ?_
              show (headerOf name (putHeader x.1 x.2 acc)).isSome
              rw [headerOf_put]
              split
              · rfl
              · exact h
          have := hkeep hs (putHeader g.1 g.2 acc) (by rw [headerOf_put, if_pos ((sameName_upper _ _).1 hs')]; rfl)
          rw [hv] at this
          cases this
        · exact hl g hg
      | some v =>
        rw [hv] at hl
        obtain ⟨a, k, b, e, h1, h2⟩ := hl
        exact ⟨h :: a, k, b, by rw [e]; rfl, h1, h2⟩
    · have he' : headerOf name (putAll (h :: hs) acc) = headerOf name (putHeader h.1 h.2 acc) := he
      rw [he', headerOf_put]
      by_cases hn : h.1.map upper = name.map upper
      · left
        rw [if_pos hn]
        exact ⟨[], h.1, hs, rfl, (sameName_upper _ _).2 hn, hno⟩
      · right
        rw [if_neg hn]
        refine ⟨?_, rfl⟩
        intro g hg
        rcases List.mem_cons.1 hg with rfl | hg
        · exact fun h => hn ((sameName_upper _ _).1 h)
        · exact hno g hg

theorem calls_append : ∀ (a b : List Call) (r : Incoming), r.calls (a ++ b) = (r.calls a).bind fun r => r.calls b
  | [], _, _ => rfl
  | c :: a, b, r => by
    rw [List.cons_append, Incoming.calls, Incoming.calls]
    cases r.call c with
    | ok r' => simp only [Out.bind_ok]; exact calls_append a b r'
    | abort => rfl
    | ub => rfl
    | diverge => rfl

theorem urls_more : ∀ (us : List (List Nat)) (r : Incoming) (t : List Nat), r.path = some t →
    r.calls (us.map Call.url) = .ok { r with path := some (t ++ us.flatten) }
  | [], r, t, h => by simp [Incoming.calls, ← h]
  | u :: us, r, t, h => by
    rw [List.map_cons, Incoming.calls, Incoming.call, Out.bind_ok, urls_more us _ (t ++ u) (by simp [h, extend])]
    simp

theorem urls_all (t : List Nat) (us : List (List Nat)) (h : Pieces t us) (r : Incoming) (hr : r.path = none) :
    r.calls (us.map Call.url) = .ok { r with path := some t } := by
  obtain ⟨hne, hj⟩ := h
  cases us with
  | nil => exact absurd rfl hne
  | cons u us =>
    rw [List.map_cons, Incoming.calls, Incoming.call, Out.bind_ok, urls_more us _ u (by simp [hr, extend])]
    simp [← hj]

theorem bodies_more : ∀ (bs : List (List Nat)) (r : Incoming) (t : List Nat), r.body = some t →
    r.calls (bs.map Call.body) = .ok { r with body := some (t ++ bs.flatten) }
  | [], r, t, h => by simp [Incoming.calls, ← h]
  | u :: us, r, t, h => by
    rw [List.map_cons, Incoming.calls, Incoming.call, Out.bind_ok, bodies_more us _ (t ++ u) (by simp [h, extend])]
    simp

theorem bodies_all (bs : List (List Nat)) (r : Incoming) (hr : r.body = none) :
    r.calls (bs.map Call.body) = .ok { r with body := if bs = [] then none else some bs.flatten } := by
  cases bs with
  | nil => simp [Incoming.calls, ← hr]
  | cons u us =>
    rw [List.map_cons, Incoming.calls, Incoming.call, Out.bind_ok, bodies_more us _ u (by simp [hr, extend])]
    simp

theorem values_more : ∀ (vs : List (List Nat)) (r : Incoming) (k t : List Nat), r.s1 = some k → r.s2 = some t →
    r.calls (vs.map Call.headerValue) = .ok { r with s2 := some (t ++ vs.flatten) }
  | [], r, k, t, _, h => by simp [Incoming.calls, ← h]
  | u :: us, r, k, t, h1, h => by
    rw [List.map_cons, Incoming.calls, Incoming.call]
    simp only [h1, Out.bind_ok]
    rw [values_more us _ k (t ++ u) (by simp [h1]) (by simp [h, extend])]
    simp [h1]

theorem values_all (v : List Nat) (vs : List (List Nat)) (h : Pieces v vs) (r : Incoming) (k : List Nat) (h1 : r.s1 = some k) (h2 : r.s2 = none) :
    r.calls (vs.map Call.headerValue) = .ok { r with s2 := some v } := by
  obtain ⟨hne, hj⟩ := h
  cases vs with
  | nil => exact absurd rfl hne
  | cons u us =>
    rw [List.map_cons, Incoming.calls, Incoming.call]
    simp only [h1, Out.bind_ok]
    rw [values_more us _ k u (by simp [h1]) (by simp [h2, extend])]
    simp [← hj, h1]

theorem fields_more : ∀ (ks : List (List Nat)) (r : Incoming) (t : List Nat), r.s1 = some t → r.s2 = none →
    r.calls (ks.map Call.headerField) = .ok { r with s1 := some (t ++ ks.flatten) }
  | [], r, t, h, _ => by simp [Incoming.calls, ← h]
  | u :: us, r, t, h, h2 => by
    rw [List.map_cons, Incoming.calls, Incoming.call]
    simp only [h2, Out.bind_ok]
    rw [fields_more us _ (t ++ u) (by simp [h, extend]) (by simp [h2])]
    simp [h2]

/-- What is stored so far, counting a header that is complete but not stored yet. -/
structure Seen (r r0 : Incoming) (hs : List (List Nat × List Nat)) : Prop where
  path : r.path = r0.path
  body : r.body = r0.body
  complete : r.isComplete = r0.isComplete
  headers : (r.s1 = none ∧ r.s2 = none ∧ r.headers = hs) ∨ ∃ k v a, r.s1 = some k ∧ r.s2 = some v ∧ r.headers = a ∧ hs = putHeader k v a

theorem header_seen (r r0 : Incoming) (hs : List (List Nat × List Nat)) (h : List Nat × List Nat) (cs : List Call) (hc : HeaderCalls h cs)
    (hr : Seen r r0 hs) : ∃ r', r.calls cs = .ok r' ∧ Seen r' r0 (putHeader h.1 h.2 hs) := by
  obtain ⟨ks, vs, ⟨hkne, hk⟩, hv, rfl⟩ := hc
  cases ks with
  | nil => exact absurd rfl hkne
  | cons u us =>
    have hfirst : ∃ r1, r.call (.headerField u) = .ok r1 ∧ r1.s1 = some u ∧ r1.s2 = none ∧ r1.headers = hs ∧ r1.path = r.path ∧
        r1.body = r.body ∧ r1.isComplete = r.isComplete := by
      rcases hr.headers with ⟨e1, e2, e3⟩ | ⟨k, v, a, e1, e2, e3, e4⟩
      · exact ⟨{ r with s1 := some u }, by simp [Incoming.call, e1, e2, extend], rfl, e2, e3, rfl, rfl, rfl⟩
      · exact ⟨{ r with headers := putHeader k v r.headers, s1 := some u, s2 := none }, by simp [Incoming.call, e1, e2, extend], rfl, rfl,
          by rw [e4, ← e3], rfl, rfl, rfl⟩
    obtain ⟨r1, c1, a1, a2, a3, a4, a5, a6⟩ := hfirst
    have c2 := fields_more us r1 u a1 a2
    have hj : u ++ us.flatten = h.1 := hk
    rw [hj] at c2
    have c3 := values_all h.2 vs hv { r1 with s1 := some h.1 } h.1 rfl a2
    refine ⟨{ r1 with s1 := some h.1, s2 := some h.2 }, ?_, ⟨a4.trans hr.path, a5.trans hr.body, a6.trans hr.complete, Or.inr ⟨h.1, h.2, hs, rfl, rfl, a3, rfl⟩⟩⟩
    rw [calls_append, List.map_cons, Incoming.calls, c1, Out.bind_ok, c2, Out.bind_ok, c3]

theorem headers_seen {hs : List (List Nat × List Nat)} {cs : List Call} (hc : HeadersCalls hs cs) : ∀ (r r0 : Incoming) (acc : List (List Nat × List Nat)),
    Seen r r0 acc → ∃ r', r.calls cs = .ok r' ∧ Seen r' r0 (putAll hs acc) := by
  induction hc with
  | nil => intro r r0 acc h; exact ⟨r, rfl, h⟩
  | cons h1 _ ih =>
    intro r r0 acc h
    obtain ⟨r1, e1, s1⟩ := header_seen r r0 acc _ _ h1 h
    obtain ⟨r2, e2, s2⟩ := ih r1 r0 _ s1
    exact ⟨r2, by rw [calls_append, e1, Out.bind_ok, e2], s2⟩

/-- **C109.** However the bytes of a request are split on their way, and whatever was received before on the connection,
the callbacks give exactly its target, its content, and for every name the value of its last header with that name. -/
theorem request_assembled (target : List Nat) (headers : List (List Nat × List Nat)) (content : List Nat) (cs : List Call)
    (h : RequestCalls target headers content cs) (before : Incoming) :
    ∃ r, before.calls cs = .ok r ∧ r.path = some target ∧ (r.body = some content ∨ (r.body = none ∧ content = [])) ∧ r.isComplete = true ∧
      ∀ name, LastValue name headers (headerOf name r.headers) := by
  obtain ⟨us, hs, bs, hu, hh, hb, rfl⟩ := h
  have e1 := urls_all target us hu before.clear rfl
  obtain ⟨r2, e2, s2⟩ := headers_seen hh { before.clear with path := some target } { before.clear with path := some target } []
    ⟨rfl, rfl, rfl, Or.inl ⟨rfl, rfl, rfl⟩⟩
  have e3 : ∃ r3, r2.call .headersComplete = .ok r3 ∧ r3.headers = putAll headers [] ∧ r3.path = some target ∧ r3.body = none := by
    rcases s2.headers with ⟨x1, x2, x3⟩ | ⟨k, v, a, x1, x2, x3, x4⟩
    · exact ⟨r2, by simp [Incoming.call, x1], x3, s2.path, s2.body⟩
    · exact ⟨{ r2 with headers := putHeader k v r2.headers, s1 := none, s2 := none }, by simp [Incoming.call, x1, x2], by rw [x4, ← x3],
        s2.path, s2.body⟩
  obtain ⟨r3, e3, h3, p3, b3⟩ := e3
  refine ⟨{ r3 with body := if bs = [] then none else some bs.flatten, isComplete := true }, ?_, p3, ?_, rfl, ?_⟩
  · rw [Incoming.calls, Incoming.call, Out.bind_ok, List.append_assoc, calls_append, e1, Out.bind_ok, calls_append, e2, Out.bind_ok,
      Incoming.calls, e3, Out.bind_ok, calls_append, bodies_all bs r3 b3, Out.bind_ok]
    rfl
  · by_cases hn : bs = []
    · right
      refine ⟨by simp [hn], by rw [← hb, hn]; rfl⟩
    · left
      simp [hn, hb]
  · intro name
    rw [h3]
    rcases putAll_last name headers [] with hl | ⟨hno, he⟩
    · exact hl
    · rw [he]; exact hno

/-- A request `/a` with `H: x`, `h: yz` and the content `b`, in pieces, after another. -/
example : RequestCalls [47, 97] [([72], [120]), ([104], [121, 122])] [98]
      [.messageBegin, .url [47], .url [97], .headerField [72], .headerValue [], .headerValue [120], .headerField [104], .headerValue [121],
        .headerValue [122], .headersComplete, .body [98], .messageComplete] ∧
    (match (⟨[([79], [79])], some [1], some [2], some [3], none, true⟩ : Incoming).calls
        [.messageBegin, .url [47], .url [97], .headerField [72], .headerValue [], .headerValue [120], .headerField [104], .headerValue [121],
        .headerValue [122], .headersComplete, .body [98], .messageComplete] with
      | .ok r => r.path = some [47, 97] ∧ headerOf [104] r.headers = some [121, 122] ∧ r.body = some [98]
      | _ => False) := by
  refine ⟨⟨[[47], [97]], [.headerField [72], .headerValue [], .headerValue [120], .headerField [104], .headerValue [121], .headerValue [122]],
    [[98]], ⟨by simp, rfl⟩, ?_, rfl, rfl⟩, ?_⟩
  · exact HeadersCalls.cons (c := [.headerField [72], .headerValue [], .headerValue [120]])
      ⟨[[72]], [[], [120]], ⟨by simp, rfl⟩, ⟨by simp, rfl⟩, rfl⟩
      (HeadersCalls.cons (c := [.headerField [104], .headerValue [121], .headerValue [122]])
        ⟨[[104]], [[121], [122]], ⟨by simp, rfl⟩, ⟨by simp, rfl⟩, rfl⟩ HeadersCalls.nil)
  · exact ⟨rfl, by decide, rfl⟩

end Verif.Http
