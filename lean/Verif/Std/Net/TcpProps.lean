import Verif.Std.Net.Tcp

/-!
# Properties of TCP connections and listeners

Source: `src/cxy/stdlib/tcp.cxy` 165-283.
-/

namespace Verif.Tcp

/-! ## Connecting -/

/-- the dial succeeds: at once, or after a wait that ends with the socket writable and without error -/
def Reaches (d : Dial) : Prop :=
  d.connect true = .done ∨ (d.connect true = .inProgress ∧ d.wake = 2 ∧ d.error = some 0)

theorem fresh_blocks (w : Fds) (fd : Nat) : decide (fd ∉ (w.new fd).nonblocking) = true := by
  simp [Fds.new]

/-- **C213.** `tcpConnect` gives a descriptor exactly when the socket is made and the dial succeeds;
the descriptor is then open and in non-blocking mode. -/
theorem connect_result (d : Dial) (w : Fds) (fd : Nat) :
    (tcpConnect d w).1 = some fd ↔ d.socket = some fd ∧ Reaches d := by
  unfold tcpConnect Reaches
  cases hs : d.socket with
  | none => simp
  | some g =>
    simp only [fresh_blocks]
    cases hc : d.connect true with
    | done => simp
    | refused => simp
    | inProgress =>
      by_cases hw : d.wake = 2
      · cases he : d.error with
        | none => simp [writable, hw]
        | some e => by_cases h0 : e = 0 <;> simp [writable, hw, h0]
      · simp [writable, hw]

theorem connect_open (d : Dial) (w : Fds) (fd : Nat) (h : (tcpConnect d w).1 = some fd) :
    (tcpConnect d w).2.opened = fd :: w.opened ∧ fd ∈ (tcpConnect d w).2.nonblocking := by
  obtain ⟨hs, hr⟩ := (connect_result d w fd).mp h
  unfold tcpConnect
  simp only [hs, fresh_blocks]
  rcases hr with hc | ⟨hc, hw, he⟩
  · simp [hc, configure, Fds.new]
  · simp [hc, hw, he, writable, configure, Fds.new]

/-- **C213.** When `tcpConnect` raises, the descriptor it opened stays open exactly when the connection
was refused at once or the wait did not end with the socket writable. -/
theorem connect_leaks_iff (d : Dial) (w : Fds) (h : (tcpConnect d w).1 = none) :
    ((tcpConnect d w).2.opened ≠ w.opened ↔
      d.socket.isSome ∧ (d.connect true = .refused ∨ (d.connect true = .inProgress ∧ d.wake ≠ 2))) := by
  unfold tcpConnect at h ⊢
  cases hs : d.socket with
  | none => simp
  | some g =>
    rw [hs] at h
    simp only [fresh_blocks] at h ⊢
    cases hc : d.connect true with
    | done => rw [hc] at h; simp at h
    | refused => simp [Fds.new]
    | inProgress =>
      by_cases hw : d.wake = 2
      · cases he : d.error with
        | none => simp [writable, hw, Fds.new, Fds.close]
        | some e => by_cases h0 : e = 0 <;> simp [writable, hw, h0, Fds.new, Fds.close, he, hc] at h ⊢
      · simp [writable, hw, Fds.new]

/-- dialling again and again -/
def dialAll : List Dial → Fds → Fds
  | [], w => w
  | d :: ds, w => dialAll ds (tcpConnect d w).2

/-- **C213.** Every refused attempt costs a descriptor: after any number of them all are still open. -/
theorem refused_dials_leak : ∀ (ds : List Dial) (w : Fds),
    (∀ d ∈ ds, d.socket.isSome ∧ d.connect true = .refused) →
    (dialAll ds w).opened.length = w.opened.length + ds.length
  | [], _, _ => rfl
  | d :: ds, w, h => by
    obtain ⟨hs, hc⟩ := h d (by simp)
    obtain ⟨fd, hs⟩ := Option.isSome_iff_exists.mp hs
    have : (tcpConnect d w).2 = w.new fd := by
      unfold tcpConnect
      simp only [hs, fresh_blocks, hc]
    rw [dialAll, refused_dials_leak ds _ (fun x hx => h x (List.mem_cons_of_mem _ hx)), this]
    simp [Fds.new]
    omega

/-- **C213.** The socket still blocks when it is connected, so on a system where a blocking `connect`
never says `EINPROGRESS` the wait, and with it the time limit, plays no part. -/
theorem connect_ignores_timeout (d e : Dial) (w : Fds) (hs : d.socket = e.socket) (hc : d.connect = e.connect)
    (hb : d.connect true ≠ .inProgress) : tcpConnect d w = tcpConnect e w := by
  unfold tcpConnect
  rw [← hs, ← hc]
  cases d.socket with
  | none => rfl
  | some fd =>
    simp only [fresh_blocks]
    cases h : d.connect true with
    | done => rfl
    | refused => rfl
    | inProgress => exact absurd h hb

/-- the server answers -/
def answered : Dial := ⟨some 7, fun _ => .done, 4, none⟩
/-- nobody listens there -/
def nobody : Dial := ⟨some 7, fun _ => .refused, 4, none⟩

example : tcpConnect answered ⟨[3], []⟩ = (some 7, ⟨[7, 3], [7]⟩) := by decide
example : (tcpConnect nobody ⟨[3], []⟩).1 = none ∧ (tcpConnect nobody ⟨[3], []⟩).2.opened = [7, 3] := by decide
example : (dialAll [nobody, nobody, nobody] ⟨[3], []⟩).opened.length = 4 :=
  refused_dials_leak _ _ (by simp [nobody])
example : Reaches ⟨some 7, fun b => if b then .inProgress else .refused, 2, some 0⟩ := by simp [Reaches]

/-! ## Listening -/

/-- the calls of `listen` that must succeed all do -/
def Works (t : Try) (port : Nat) : Prop := t.socket.isSome ∧ t.bind ∧ t.listen ∧ (port = 0 → t.name.isSome)

/-- **C214.** `listen` says true exactly when all its calls succeed, and the listener is then
listening; otherwise it is not, and the descriptor made for it is closed again. The port becomes the
one chosen by the system when it was 0, and stays otherwise. -/
theorem listen_result (t : Try) (l : Lst) (w : Fds) :
    ((listen t l w).1 = true ↔ Works t l.port) ∧
    ((listen t l w).1 = true → (listen t l w).2.1.fd = t.socket ∧ t.socket.isSome ∧
      (listen t l w).2.2.opened = t.socket.toList ++ w.opened ∧
      some (listen t l w).2.1.port = if l.port = 0 then t.name else some l.port) ∧
    ((listen t l w).1 = false → (listen t l w).2.1.fd = none ∧ (listen t l w).2.2.opened = w.opened ∧
      (listen t l w).2.1.port = l.port) := by
  unfold listen Works
  cases t.socket with
  | none => simp
  | some fd =>
    cases hb : t.bind with
    | false => simp [close, Fds.close, configure, Fds.new]
    | true =>
      cases hl : t.listen with
      | false => simp [close, Fds.close, configure, Fds.new]
      | true =>
        by_cases hp : l.port = 0
        · cases hn : t.name with
          | none => simp [hp, close, Fds.close, configure, Fds.new]
          | some p => simp [hp, configure, Fds.new]
        · simp [hp, configure, Fds.new]

/-- **C214.** Closing twice is closing once, and a closed listener accepts nothing and calls nothing. -/
theorem close_idempotent (l : Lst) (w : Fds) :
    (close l w).1.fd = none ∧ close (close l w).1 (close l w).2 = close l w := by
  unfold close
  cases h : l.fd <;> simp [h]

theorem closed_accepts_nothing (rs : List Round) (l : Lst) (w : Fds) (h : l.fd = none) :
    accept rs l w = (.null, l, w) := by
  cases rs <;> simp [accept, h]

/-- the listener goes on waiting in this round -/
def Waits (r : Round) : Prop := r.answer = none ∧ r.closed = false ∧ r.wake = 1

/-- **C214.** `accept` gives the first connection there is, however often it had to wait for it. -/
theorem accept_first (pre : List Round) (fd : Nat) (c : Bool) (k : Int) (post : List Round) (l : Lst) (w : Fds)
    (ho : l.fd.isSome) (hp : ∀ r ∈ pre, Waits r) :
    accept (pre ++ ⟨some (some fd), c, k⟩ :: post) l w = (.conn fd, l, ⟨fd :: w.opened, fd :: w.nonblocking.filter (· ≠ fd)⟩) := by
  induction pre with
  | nil => simp [accept, ho, configure, Fds.new]
  | cons r pre ih =>
    obtain ⟨h1, h2, h3⟩ := hp r (by simp)
    rw [List.cons_append, accept, if_pos ho, h1]
    simp only [h2, h3, Bool.false_eq_true, if_false, readable, ne_eq, not_true_eq_false]
    exact ih (fun x hx => hp x (List.mem_cons_of_mem _ hx))

/-- **C214.** `accept` gives null exactly when, after any number of waits, the call fails, a wait does
not end with the listener readable, or the listener is closed. -/
theorem accept_null_iff : ∀ (rs : List Round) (l : Lst) (w : Fds), l.fd.isSome →
    ((accept rs l w).1 = .null ↔
      ∃ pre r post, rs = pre ++ r :: post ∧ (∀ x ∈ pre, Waits x) ∧
        (r.answer = some none ∨ (r.answer = none ∧ (r.wake ≠ 1 ∨ r.closed = true)))) := by
  intro rs
  induction rs with
  | nil => intro l w ho; simp [accept, ho]
  | cons r rs ih =>
    intro l w ho
    rw [accept, if_pos ho]
    have up : ∀ (hw : Waits r), ((accept rs l w).1 = .null ↔ ∃ pre q post, r :: rs = pre ++ q :: post ∧ (∀ x ∈ pre, Waits x) ∧
        (q.answer = some none ∨ (q.answer = none ∧ (q.wake ≠ 1 ∨ q.closed = true)))) := by
      intro hw
      rw [ih l w ho]
      constructor
      · rintro ⟨pre, q, post, he, hp, hq⟩
        refine ⟨r :: pre, q, post, by rw [he]; rfl, ?_, hq⟩
        intro x hx
        rcases List.mem_cons.mp hx with rfl | hx
        · exact hw
        · exact hp x hx
      · rintro ⟨pre, q, post, he, hp, hq⟩
        cases pre with
        | nil =>
          simp only [List.nil_append, List.cons.injEq] at he
          obtain ⟨rfl, _⟩ := he
          obtain ⟨h1, h2, h3⟩ := hw
          rw [h1, h2, h3] at hq
          simp at hq
        | cons y pre =>
          simp only [List.cons_append, List.cons.injEq] at he
          exact ⟨pre, q, post, he.2, fun x hx => hp x (List.mem_cons_of_mem _ hx), hq⟩
    cases ha : r.answer with
    | some o =>
      cases o with
      | some fd =>
        simp only [reduceCtorEq, false_iff]
        rintro ⟨pre, q, post, he, hp, hq⟩
        cases pre with
        | nil =>
          simp only [List.nil_append, List.cons.injEq] at he
          rw [← he.1, ha] at hq
          simp at hq
        | cons y pre =>
          simp only [List.cons_append, List.cons.injEq] at he
          have := (hp y (by simp)).1
          rw [← he.1, ha] at this
          cases this
      | none =>
        simp only [true_iff]
        exact ⟨[], r, rs, rfl, by simp, .inl ha⟩
    | none =>
      by_cases hc : r.closed = true
      · simp only [hc, if_true]
        have : (close l w).1.fd = none := (close_idempotent l w).1
        constructor
        · intro _
          exact ⟨[], r, rs, rfl, by simp, .inr ⟨ha, .inr hc⟩⟩
        · intro _
          split
          · rfl
          · rw [closed_accepts_nothing _ _ _ this]
      · have hc' : r.closed = false := by simpa using hc
        simp only [hc', Bool.false_eq_true, if_false]
        by_cases hk : r.wake = 1
        · rw [if_neg (by simpa [readable] using hk)]
          exact up ⟨ha, hc', hk⟩
        · rw [if_pos (by simpa [readable] using hk)]
          simp only [true_iff]
          exact ⟨[], r, rs, rfl, by simp, .inr ⟨ha, .inl hk⟩⟩

example : accept [⟨none, false, 1⟩, ⟨none, false, 1⟩, ⟨some (some 9), false, 0⟩] ⟨some 5, 80⟩ ⟨[5], [5]⟩ =
    (.conn 9, ⟨some 5, 80⟩, ⟨[9, 5], [9, 5]⟩) := by decide
example : (accept [⟨none, false, 4⟩] ⟨some 5, 80⟩ ⟨[5], [5]⟩).1 = .null := by decide
example : (listen ⟨some 5, true, true, some 4711⟩ ⟨none, 0⟩ ⟨[], []⟩).2.1 = ⟨some 5, 4711⟩ := by decide
example : (listen ⟨some 5, true, false, none⟩ ⟨none, 80⟩ ⟨[3], []⟩).2 = (⟨none, 80⟩, ⟨[3], [5]⟩) := by decide

/-! ## Descriptors over the life of a listener -/

/-- Specification: does `accept` see the listener closed by another thread? -/
def closedMeanwhile : List Round → Bool
  | [] => false
  | r :: rs => r.answer.isNone && (r.closed || (r.wake = 1 && closedMeanwhile rs))

/-- Specification: the descriptors a listener forgets, from the descriptor it holds: one for every
`listen` while it is listening. -/
def forgotten : List Op → Option Nat → Nat → List Nat
  | [], _, _ => []
  | .listen t :: ops, held, port =>
    held.toList ++
      (if t.socket.isSome ∧ t.bind = true ∧ t.listen = true ∧ (port = 0 → t.name.isSome = true) then
        forgotten ops t.socket (if port = 0 then t.name.getD 0 else port)
      else forgotten ops none port)
  | .accept rs :: ops, held, port => forgotten ops (if closedMeanwhile rs then none else held) port
  | .close :: ops, _, port => forgotten ops none port

theorem accept_state : ∀ (rs : List Round) (l : Lst) (w : Fds),
    (accept rs l w).2.1.port = l.port ∧
    (accept rs l w).2.1.fd = (if closedMeanwhile rs then none else l.fd) ∧
    (∀ rest : List Nat, w.opened.Perm (l.fd.toList ++ rest) →
      (accept rs l w).2.2.opened.Perm ((accept rs l w).2.1.fd.toList ++
        ((match (accept rs l w).1 with | .conn fd => [fd] | _ => []) ++ rest))) := by
  intro rs
  induction rs with
  | nil =>
    intro l w
    unfold accept
    split <;> simp [closedMeanwhile]
  | cons r rs ih =>
    intro l w
    cases hf : l.fd with
    | none =>
      rw [closed_accepts_nothing _ _ _ hf]
      refine ⟨rfl, by simp [hf], ?_⟩
      intro rest h
      simpa [hf] using h
    | some f =>
      rw [accept, if_pos (by rw [hf]; rfl)]
      cases ha : r.answer with
      | some o =>
        cases o with
        | some fd =>
          refine ⟨rfl, by simp [closedMeanwhile, ha, hf], ?_⟩
          intro rest h
          simp only [configure, Fds.new, hf, Option.toList_some, List.cons_append, List.nil_append] at h ⊢
          exact (List.Perm.cons fd h).trans (List.Perm.swap _ _ _)
        | none =>
          refine ⟨rfl, by simp [closedMeanwhile, ha, hf], ?_⟩
          intro rest h
          simpa [hf] using h
      | none =>
        by_cases hc : r.closed = true
        · simp only [hc, if_true]
          have hcl : close l w = ({ l with fd := none }, w.close f) := by unfold close; rw [hf]
          have hac : (if r.wake ≠ readable then (Got.null, (close l w).1, (close l w).2) else accept rs (close l w).1 (close l w).2) =
              (Got.null, (close l w).1, (close l w).2) := by
            split
            · rfl
            · exact closed_accepts_nothing _ _ _ (close_idempotent l w).1
          rw [hac, hcl]
          refine ⟨rfl, by simp [closedMeanwhile, ha, hc], ?_⟩
          intro rest h
          simp only [Option.toList_some, List.cons_append, List.nil_append, Option.toList_none, Fds.close] at h ⊢
          have := h.erase f
          rwa [List.erase_cons_head] at this
        · have hc' : r.closed = false := by simpa using hc
          simp only [hc', Bool.false_eq_true, if_false]
          by_cases hk : r.wake = 1
          · rw [if_neg (by simpa [readable] using hk)]
            obtain ⟨h1, h2, h3⟩ := ih l w
            refine ⟨h1, by rw [h2, hf]; simp [closedMeanwhile, ha, hc', hk], ?_⟩
            rw [hf] at h3
            exact h3
          · rw [if_pos (by simpa [readable] using hk)]
            refine ⟨rfl, by simp [closedMeanwhile, ha, hc', hk, hf], ?_⟩
            intro rest h
            simpa [hf] using h

theorem run_descriptors : ∀ (ops : List Op) (l : Lst) (w : Fds) (taken rest : List Nat),
    w.opened.Perm (l.fd.toList ++ rest) →
    ∃ new, (run ops l w taken).2.2 = new ++ taken ∧
      (run ops l w taken).2.1.opened.Perm
        ((run ops l w taken).1.fd.toList ++ (new ++ (forgotten ops l.fd l.port ++ rest))) := by
  intro ops
  induction ops with
  | nil =>
    intro l w taken rest h
    exact ⟨[], rfl, by simpa [run, forgotten] using h⟩
  | cons op ops ih =>
    intro l w taken rest h
    cases op with
    | close =>
      rw [run, forgotten]
      have hcl : (close l w).2.opened.Perm ((close l w).1.fd.toList ++ rest) ∧ (close l w).1.fd = none ∧ (close l w).1.port = l.port := by
        unfold close
        cases hf : l.fd with
        | none => simp [hf] at h ⊢; exact h
        | some f =>
          simp only [hf, Option.toList_some, List.cons_append, List.nil_append] at h
          simp only [Option.toList_none, List.nil_append, and_self, and_true, Fds.close]
          have := h.erase f
          rwa [List.erase_cons_head] at this
      obtain ⟨new, h1, h2⟩ := ih (close l w).1 (close l w).2 taken rest hcl.1
      rw [hcl.2.1, hcl.2.2] at h2
      exact ⟨new, h1, h2⟩
    | accept rs =>
      rw [run, forgotten]
      obtain ⟨ap, af, ao⟩ := accept_state rs l w
      have ao := ao rest h
      have fin : ∀ tk got, (match (accept rs l w).1 with | .conn fd => [fd] | _ => []) = got →
          ∃ new, (run ops (accept rs l w).2.1 (accept rs l w).2.2 tk).2.2 = new ++ tk ∧
            (run ops (accept rs l w).2.1 (accept rs l w).2.2 tk).2.1.opened.Perm
              ((run ops (accept rs l w).2.1 (accept rs l w).2.2 tk).1.fd.toList ++
                (new ++ (forgotten ops (if closedMeanwhile rs then none else l.fd) l.port ++ (got ++ rest)))) := by
        intro tk got hg
        rw [hg] at ao
        obtain ⟨new, h1, h2⟩ := ih (accept rs l w).2.1 (accept rs l w).2.2 tk (got ++ rest) ao
        rw [af, ap] at h2
        exact ⟨new, h1, h2⟩
      cases hg : (accept rs l w).1 with
      | conn fd =>
        simp only
        obtain ⟨new, h1, h2⟩ := fin (fd :: taken) [fd] (by rw [hg])
        refine ⟨new ++ [fd], by rw [h1]; simp, h2.trans ?_⟩
        refine List.Perm.append_left _ ?_
        rw [List.append_assoc]
        refine List.Perm.append_left _ ?_
        rw [← List.append_assoc, ← List.append_assoc]
        exact List.Perm.append_right _ List.perm_append_comm
      | null =>
        obtain ⟨new, h1, h2⟩ := fin taken [] (by rw [hg])
        exact ⟨new, h1, h2⟩
      | waiting =>
        obtain ⟨new, h1, h2⟩ := fin taken [] (by rw [hg])
        exact ⟨new, h1, h2⟩
    | listen t =>
      rw [run, forgotten]
      obtain ⟨hr, ht, hf⟩ := listen_result t l w
      by_cases hw : (listen t l w).1 = true
      · rw [if_pos (by simpa [Works] using hr.mp hw)]
        obtain ⟨t1, t2, t3, t4⟩ := ht hw
        obtain ⟨new, h1, h2⟩ := ih (listen t l w).2.1 (listen t l w).2.2 taken (l.fd.toList ++ rest) (by
          rw [t1, t3]; exact List.Perm.append_left _ h)
        have hport : (listen t l w).2.1.port = if l.port = 0 then t.name.getD 0 else l.port := by
          by_cases hp : l.port = 0
          · rw [if_pos hp] at t4 ⊢; rw [← t4]; rfl
          · rw [if_neg hp] at t4 ⊢; simpa using t4
        rw [t1, hport] at h2
        refine ⟨new, h1, h2.trans ?_⟩
        refine List.Perm.append_left _ (List.Perm.append_left _ ?_)
        rw [← List.append_assoc]
        exact List.Perm.append_right _ List.perm_append_comm
      · have hw' : (listen t l w).1 = false := by simpa using hw
        rw [if_neg (by intro hx; exact hw (hr.mpr (by simpa [Works] using hx)))]
        obtain ⟨t1, t2, t3⟩ := hf hw'
        obtain ⟨new, h1, h2⟩ := ih (listen t l w).2.1 (listen t l w).2.2 taken (l.fd.toList ++ rest) (by
          rw [t1, t2]; exact h)
        rw [t1, t3] at h2
        refine ⟨new, h1, h2.trans ?_⟩
        refine List.Perm.append_left _ (List.Perm.append_left _ ?_)
        rw [← List.append_assoc]
        exact List.Perm.append_right _ List.perm_append_comm

/-- **C214.** Whatever is done with a new listener, the open descriptors are those open before, the
connections handed out, the descriptor of the listener, and one more for every `listen` that was
called while it was listening. -/
theorem listener_descriptors (ops : List Op) (port : Nat) (w : Fds) :
    (run ops ⟨none, port⟩ w []).2.1.opened.Perm
      ((run ops ⟨none, port⟩ w []).1.fd.toList ++
        ((run ops ⟨none, port⟩ w []).2.2 ++ (forgotten ops none port ++ w.opened))) := by
  obtain ⟨new, h1, h2⟩ := run_descriptors ops ⟨none, port⟩ w [] w.opened (List.Perm.refl _)
  rw [h1, List.append_nil]
  exact h2

/-- **C214.** No descriptor is lost exactly when `listen` is never called on a listening listener. -/
theorem listener_no_loss_iff_partial (ops : List Op) (port : Nat) (w : Fds) :
    (run ops ⟨none, port⟩ w []).2.1.opened.Perm
      ((run ops ⟨none, port⟩ w []).1.fd.toList ++ ((run ops ⟨none, port⟩ w []).2.2 ++ w.opened)) ↔
    forgotten ops none port = [] := by
  have h := listener_descriptors ops port w
  constructor
  · intro h'
    have := (h.symm.trans h').length_eq
    simp only [List.length_append] at this
    exact List.eq_nil_of_length_eq_zero (by omega)
  · intro h'
    rw [h', List.nil_append] at h
    exact h

/-- **C214 fails.** A listener that listens twice loses its first descriptor, which stays open though
the listener is closed afterwards. -/
theorem listening_twice_leaks (port p q f g : Nat) (w : Fds) :
    (run [.listen ⟨some f, true, true, some p⟩, .listen ⟨some g, true, true, some q⟩, .close] ⟨none, port⟩ w []).2.1.opened.Perm
      (f :: w.opened) := by
  have h := listener_descriptors [.listen ⟨some f, true, true, some p⟩, .listen ⟨some g, true, true, some q⟩, .close] port w
  have hl : (run [.listen ⟨some f, true, true, some p⟩, .listen ⟨some g, true, true, some q⟩, .close] ⟨none, port⟩ w []).1.fd = none := by
    unfold run
    unfold run
    unfold run
    unfold run
    exact (close_idempotent _ _).1
  have ht : (run [.listen ⟨some f, true, true, some p⟩, .listen ⟨some g, true, true, some q⟩, .close] ⟨none, port⟩ w []).2.2 = [] := rfl
  rw [hl, ht] at h
  simpa [forgotten] using h

/-- a server that listens, waits, takes a connection and closes loses nothing -/
def service : List Op :=
  [.listen ⟨some 5, true, true, none⟩, .accept [⟨none, false, 1⟩, ⟨some (some 6), false, 0⟩], .accept [⟨none, false, 4⟩], .close]

example : forgotten service none 80 = [] ∧ (run service ⟨none, 80⟩ ⟨[3], []⟩ []).2.1.opened = [6, 3] := by decide
example : (run [.listen ⟨some 5, true, true, none⟩, .listen ⟨some 6, true, true, none⟩, .close] ⟨none, 80⟩ ⟨[3], []⟩ []).2.1.opened = [5, 3] := by
  decide

end Verif.Tcp
