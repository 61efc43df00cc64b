import Verif.Std.Http.Server
import Verif.Std.Http.Lines
/-! # Responses announce the length of what follows (C105, C106) -/
namespace Verif.Http

/-! ## Specification -/

/-- The bytes a handler sends, as its own steps say: the last text given as a whole and what was written after it, or
else the chunks in order. -/
def saidText : List Reply → Option (List Nat) → Option (List Nat)
  | [], t => t
  | .write s :: rest, t => saidText rest (some (t.getD [] ++ s))
  | .body s :: rest, _ => saidText rest (some s)
  | _ :: rest, t => saidText rest t

def saidChunks : List Reply → List Chunk
  | [] => []
  | .chunk c :: rest => c :: saidChunks rest
  | _ :: rest => saidChunks rest

def saidStatus : List Reply → Nat → Nat
  | [], s => s
  | .finish s :: rest, _ => saidStatus rest s
  | _ :: rest, s => saidStatus rest s

/-- The bytes of a chunk: its text, or `count` bytes of the file from `offset`. -/
def Chunk.bytes : Chunk → List Nat
  | .text s => s
  | .file c count offset => (c.drop offset).take count
  | .temp c => c

/-- The file of a chunk has the bytes that are to be sent, and can be addressed. -/
def Chunk.Whole : Chunk → Prop
  | .text _ => True
  | .file c count offset => offset + count ≤ c.length
  | .temp c => c.length < 2 ^ 64

/-- What the handler said to send. -/
def said (steps : List Reply) : List Nat := (saidText steps none).getD ((saidChunks steps).flatMap Chunk.bytes)

/-- The text of a status line. -/
def IsStatusLine (status : Nat) (line : List Nat) : Prop := ∃ reason, reason ≠ [] ∧ line = str "HTTP/1.1 " ++ number status ++ [32] ++ reason

/-- No text that goes into the head has a line break of its own. -/
def NoBreaks (headers : List (List Nat × List Nat)) (cfg : Config) (date : List Nat) : Prop :=
  (∀ h ∈ headers, 13 ∉ h.1 ∧ 13 ∉ h.2) ∧ 13 ∉ cfg.serverName ∧ 13 ∉ date

/-! ## The handler's steps -/

/-- What a state has to do with the steps that led to it. -/
structure After (steps : List Reply) (r : Response) : Prop where
  body : r.body = saidText steps none
  chunks : r.chunks = if saidChunks steps = [] then none else some (saidChunks steps)
  status : r.status = saidStatus steps 200

theorem saidText_snoc : ∀ (ss : List Reply) (s : Reply) (t : Option (List Nat)),
    saidText (ss ++ [s]) t = saidText [s] (saidText ss t)
  | [], _, _ => rfl
  | .write x :: rest, s, t => by simpa [saidText] using saidText_snoc rest s (some (t.getD [] ++ x))
  | .body x :: rest, s, t => by simpa [saidText] using saidText_snoc rest s (some x)
  | .chunk x :: rest, s, t => by simpa [saidText] using saidText_snoc rest s t
  | .finish x :: rest, s, t => by simpa [saidText] using saidText_snoc rest s t
  | .header k x :: rest, s, t => by simpa [saidText] using saidText_snoc rest s t

theorem saidStatus_snoc : ∀ (ss : List Reply) (s : Reply) (t : Nat), saidStatus (ss ++ [s]) t = saidStatus [s] (saidStatus ss t)
  | [], _, _ => rfl
  | .write x :: rest, s, t => by simpa [saidStatus] using saidStatus_snoc rest s t
  | .body x :: rest, s, t => by simpa [saidStatus] using saidStatus_snoc rest s t
  | .chunk x :: rest, s, t => by simpa [saidStatus] using saidStatus_snoc rest s t
  | .finish x :: rest, s, t => by simpa [saidStatus] using saidStatus_snoc rest s x
  | .header k x :: rest, s, t => by simpa [saidStatus] using saidStatus_snoc rest s t

theorem saidChunks_append : ∀ (ss ts : List Reply), saidChunks (ss ++ ts) = saidChunks ss ++ saidChunks ts
  | [], _ => rfl
  | .write x :: rest, s => by simpa [saidChunks] using saidChunks_append rest s
  | .body x :: rest, s => by simpa [saidChunks] using saidChunks_append rest s
  | .chunk x :: rest, s => by simpa [saidChunks] using saidChunks_append rest s
  | .finish x :: rest, s => by simpa [saidChunks] using saidChunks_append rest s
  | .header k x :: rest, s => by simpa [saidChunks] using saidChunks_append rest s

theorem after_step {ss : List Reply} {r r' : Response} (s : Reply) (h : After ss r) (e : r.step s = .ok r') : After (ss ++ [s]) r' := by
  have hb := h.body; have hc := h.chunks; have hs := h.status
  cases s with
  | write t =>
    have ht : saidText (ss ++ [.write t]) none = some ((saidText ss none).getD [] ++ t) := by rw [saidText_snoc]; rfl
    have hcs : saidChunks (ss ++ [.write t]) = saidChunks ss := by rw [saidChunks_append]; simp [saidChunks]
    have hst : saidStatus (ss ++ [.write t]) 200 = saidStatus ss 200 := by rw [saidStatus_snoc]; rfl
    simp only [Response.step] at e
    cases h1 : r.body with
    | some b =>
      rw [h1] at e hb
      cases e
      exact ⟨by rw [ht, ← hb]; rfl, by rw [hcs]; exact hc, by rw [hst]; exact hs⟩
    | none =>
      rw [h1] at e hb
      simp only at e
      split at e
      · cases e
      · cases e
        exact ⟨by rw [ht, ← hb]; rfl, by rw [hcs]; exact hc, by rw [hst]; exact hs⟩
  | body t =>
    cases e
    refine ⟨?_, ?_, ?_⟩
    · rw [saidText_snoc]; rfl
    · rw [saidChunks_append]; simpa [saidChunks] using hc
    · rw [saidStatus_snoc]; simpa [saidStatus] using hs
  | chunk c =>
    simp only [Response.step] at e
    split at e
    · cases e
    · cases e
      refine ⟨?_, ?_, ?_⟩
      · rw [saidText_snoc]; simpa [saidText] using hb
      · rw [saidChunks_append, hc]
        by_cases h0 : saidChunks ss = []
        · simp [saidChunks, h0]
        · simp [saidChunks, h0]
      · rw [saidStatus_snoc]; simpa [saidStatus] using hs
  | finish s =>
    cases e
    refine ⟨?_, ?_, ?_⟩
    · rw [saidText_snoc]; simpa [saidText] using hb
    · rw [saidChunks_append]; simpa [saidChunks] using hc
    · rw [saidStatus_snoc]; rfl
  | header k v =>
    cases e
    refine ⟨?_, ?_, ?_⟩
    · rw [saidText_snoc]; simpa [saidText] using hb
    · rw [saidChunks_append]; simpa [saidChunks] using hc
    · rw [saidStatus_snoc]; simpa [saidStatus] using hs

theorem after_run : ∀ (ss ts : List Reply) {r r' : Response}, After ss r → r.run ts = .ok r' → After (ss ++ ts) r'
  | ss, [], r, r', h, e => by cases e; simpa using h
  | ss, t :: ts, r, r', h, e => by
    rw [Response.run] at e
    cases e1 : r.step t with
    | ok r1 =>
      rw [e1] at e
      have := after_run (ss ++ [t]) ts (after_step t h e1) e
      simpa using this
    | abort => rw [e1] at e; cases e
    | ub => rw [e1] at e; cases e
    | diverge => rw [e1] at e; cases e

theorem after_new : After [] Response.new := ⟨rfl, rfl, rfl⟩

/-! ## Sizes -/

theorem sent_whole (c : Chunk) (h : c.Whole) : c.sent = c.bytes ∧
    ∀ rest sz, chunksSize (c :: rest) sz = chunksSize rest (wrap (sz + c.bytes.length)) := by
  cases c with
  | text s => exact ⟨rfl, fun _ _ => rfl⟩
  | file c count offset =>
    refine ⟨rfl, fun rest sz => ?_⟩
    have hl : offset + count ≤ c.length := h
    have : ((c.drop offset).take count).length = count := by
      rw [List.length_take, List.length_drop]; omega
    simp only [chunksSize, Chunk.bytes, this]
  | temp c =>
    have hl : c.length < 2 ^ 64 := h
    have hw : wrap c.length = c.length := Nat.mod_eq_of_lt hl
    exact ⟨by simp [Chunk.sent, sendFile, Chunk.bytes, hw], fun rest sz => by simp only [chunksSize, Chunk.bytes, hw]⟩

theorem chunks_sent : ∀ (cs : List Chunk), (∀ c ∈ cs, c.Whole) → cs.flatMap Chunk.sent = cs.flatMap Chunk.bytes
  | [], _ => rfl
  | c :: rest, h => by
    rw [List.flatMap_cons, List.flatMap_cons, (sent_whole c (h c (by simp))).1, chunks_sent rest (fun d hd => h d (by simp [hd]))]

theorem chunks_size : ∀ (cs : List Chunk) (sz : Nat), (∀ c ∈ cs, c.Whole) →
    wrap (chunksSize cs sz) = wrap (sz + (cs.flatMap Chunk.bytes).length)
  | [], sz, _ => by simp [chunksSize]
  | c :: rest, sz, h => by
    rw [(sent_whole c (h c (by simp))).2, chunks_size rest _ (fun d hd => h d (by simp [hd])), List.flatMap_cons, List.length_append]
    unfold wrap
    omega

theorem chunksSize_lt : ∀ (cs : List Chunk) (sz : Nat), sz < 2 ^ 64 → chunksSize cs sz < 2 ^ 64
  | [], sz, h => h
  | .text s :: rest, sz, _ => chunksSize_lt rest _ (Nat.mod_lt _ (by omega))
  | .file _ _ _ :: rest, sz, _ => chunksSize_lt rest _ (Nat.mod_lt _ (by omega))
  | .temp _ :: rest, sz, _ => chunksSize_lt rest _ (Nat.mod_lt _ (by omega))

theorem stream_said {ss : List Reply} {r : Response} (h : After ss r) (hw : ∀ c ∈ saidChunks ss, c.Whole) : r.stream = said ss := by
  unfold Response.stream said
  rw [h.body, h.chunks]
  cases saidText ss none with
  | some t => rfl
  | none =>
    by_cases h0 : saidChunks ss = []
    · simp [h0]
    · simp [h0, chunks_sent _ hw]

theorem size_said {ss : List Reply} {r : Response} (h : After ss r) (hw : ∀ c ∈ saidChunks ss, c.Whole)
    (hl : (said ss).length < 2 ^ 64) : r.size = (said ss).length := by
  unfold said at hl ⊢
  unfold Response.size
  rw [h.body, h.chunks]
  cases ht : saidText ss none with
  | some t => rw [ht] at hl; exact Nat.mod_eq_of_lt hl
  | none =>
    rw [ht] at hl
    by_cases h0 : saidChunks ss = []
    · simp [h0]
    · simp only [if_neg h0, Option.getD_none] at hl ⊢
      have h1 := chunks_size (saidChunks ss) 0 hw
      rw [Nat.zero_add] at h1
      unfold wrap at h1
      rw [Nat.mod_eq_of_lt hl, Nat.mod_eq_of_lt (chunksSize_lt _ _ (by omega))] at h1
      exact h1

/-! ## The theorem -/

/-- The statuses a response can be given. -/
def statuses : List Nat := [100, 101, 200, 201, 202, 203, 204, 205, 206, 300, 301, 302, 303, 304, 305, 307, 400, 401, 402, 403,
  404, 405, 406, 407, 408, 409, 410, 411, 412, 413, 414, 415, 416, 417, 500, 501, 502, 503, 504, 505]

/-- Does the text start with the status line of `s`? -/
def lineOk (s : Nat) : Bool :=
  let t := statusText s
  (str "HTTP/1.1 " ++ number s ++ [32]).isPrefixOf t && decide ((str "HTTP/1.1 " ++ number s ++ [32]).length < t.length) &&
  !t.contains 13

theorem lines_ok : ∀ s ∈ statuses, lineOk s = true := by decide +kernel

theorem status_line (s : Nat) (h : s ∈ statuses) : ∃ reason, reason ≠ [] ∧ 13 ∉ reason ∧
    statusText s = str "HTTP/1.1 " ++ number s ++ [32] ++ reason := by
  have h1 := lines_ok s h
  unfold lineOk at h1
  simp only [Bool.and_eq_true, decide_eq_true_eq, Bool.not_eq_true', List.contains_eq_mem, decide_eq_false_iff_not] at h1
  obtain ⟨⟨h1, h2⟩, h3⟩ := h1
  obtain ⟨reason, hr⟩ := List.isPrefixOf_iff_prefix.1 h1
  refine ⟨reason, ?_, ?_, hr.symm⟩
  · rintro rfl
    rw [List.append_nil] at hr
    rw [hr] at h2
    omega
  · intro hm
    exact h3 (hr ▸ List.mem_append_right _ hm)

/-- The lines of the head. -/
def Response.lines (r : Response) (cfg : Config) (date : List Nat) : List (List Nat) :=
  let close := match headerOf (str "Connection") r.headers with | some v => decide (v = str "Close") | none => false
  [statusText r.status] ++
  ((if !close && decide (cfg.keepAliveTime > 0)
   then [str "Connection: Keep-Alive", str "Keep-Alive: " ++ number cfg.keepAliveTime] else []) ++
  (if cfg.hstsEnable > 0
   then [str "Strict-Transport-Security: max-age=" ++ number cfg.hstsEnable ++ str "; includeSubdomains"] else []) ++
  (r.headers.map fun h => h.1 ++ str ": " ++ h.2) ++
  (if (headerOf (str "Server") r.headers).isNone then [str "Server: " ++ cfg.serverName] else []) ++
  (if (headerOf (str "Date") r.headers).isNone then [str "Date: " ++ date] else []) ++
  (if (headerOf (str "Content-Length") r.headers).isNone then [str "Content-Length: " ++ number r.size] else []))

theorem head_lines (r : Response) (cfg : Config) (date : List Nat) : r.head cfg date = unlines (r.lines cfg date) := by
  have h1 : ∀ a, unlines [a] = a ++ crlf := fun a => by simp [unlines, crlf]
  have h2 : ∀ a b, unlines [a, b] = a ++ crlf ++ b ++ crlf := fun a b => by simp [unlines, crlf]
  unfold Response.lines Response.head
  simp only [unlines_append, unlines_if, unlines_headers, h1, h2]
  simp only [List.append_assoc]
  rfl

theorem lines_shape (r : Response) (cfg : Config) (date : List Nat) (hs : r.status ∈ statuses) :
    (∀ l ∈ r.lines cfg date, l ≠ []) ∧ (NoBreaks r.headers cfg date → ∀ l ∈ r.lines cfg date, 13 ∉ l) ∧
    (∃ first rest, r.lines cfg date = first :: rest ∧ IsStatusLine r.status first) ∧
    (headerOf (str "Content-Length") r.headers = none → str "Content-Length: " ++ number r.size ∈ r.lines cfg date) := by
  obtain ⟨reason, h1, h2, h3⟩ := status_line r.status hs
  have c0 : ∀ s, s ∈ ["Connection: Keep-Alive", "Keep-Alive: ", "Strict-Transport-Security: max-age=", "; includeSubdomains", "Server: ",
      "Date: ", "Content-Length: ", "HTTP/1.1 ", ": "] → str s ≠ [] ∧ 13 ∉ str s := by decide
  refine ⟨?_, ?_, ⟨_, _, rfl, reason, h1, h3⟩, ?_⟩
  · intro l hl
    unfold Response.lines at hl
    simp only [List.mem_append, List.mem_ite_nil_right, List.mem_cons, List.mem_map, List.not_mem_nil, or_false] at hl
    rcases hl with rfl | (((((⟨_, (rfl | rfl)⟩ | ⟨_, rfl⟩) | ⟨h, _, rfl⟩) | ⟨_, rfl⟩) | ⟨_, rfl⟩) | ⟨_, rfl⟩)
    · rw [h3]; simp
    all_goals simp [str]
  · rintro ⟨hh, hsv, hd⟩ l hl
    unfold Response.lines at hl
    simp only [List.mem_append, List.mem_ite_nil_right, List.mem_cons, List.mem_map, List.not_mem_nil, or_false] at hl
    rcases hl with rfl | (((((⟨_, (rfl | rfl)⟩ | ⟨_, rfl⟩) | ⟨h, hm, rfl⟩) | ⟨_, rfl⟩) | ⟨_, rfl⟩) | ⟨_, rfl⟩)
    · rw [h3]
      simp only [List.mem_append, not_or]
      exact ⟨⟨⟨(c0 _ (by simp)).2, digit_not_cr _⟩, by decide⟩, h2⟩
    · exact (c0 _ (by simp)).2
    · simp only [List.mem_append, not_or]
      exact ⟨(c0 _ (by simp)).2, digit_not_cr _⟩
    · simp only [List.mem_append, not_or]
      exact ⟨⟨(c0 _ (by simp)).2, digit_not_cr _⟩, (c0 _ (by simp)).2⟩
    · simp only [List.mem_append, not_or]
      exact ⟨⟨(hh h hm).1, (c0 _ (by simp)).2⟩, (hh h hm).2⟩
    · simp only [List.mem_append, not_or]
      exact ⟨(c0 _ (by simp)).2, hsv⟩
    · simp only [List.mem_append, not_or]
      exact ⟨(c0 _ (by simp)).2, hd⟩
    · simp only [List.mem_append, not_or]
      exact ⟨(c0 _ (by simp)).2, digit_not_cr _⟩
  · intro hcl
    unfold Response.lines
    simp [hcl]

/-- The handler gave nothing to send. -/
def SaidNothing (steps : List Reply) : Prop := (saidText steps none).getD [] = [] ∧ saidChunks steps = []

/-- **C105.** A response is sent as lines, none of them empty, the first of which is a status line with its own status
code, then an empty line, and then exactly the bytes that the handler gave: the last text and what was written after it, or the
chunks in order, files from their offset.  Unless the handler sets that header, the announced `Content-Length` is the number
of these bytes.  No line contains a line break unless the handler or the configuration put one there.
Sending never fails an assertion.  An error for which the handler gave nothing is sent with a text that is not empty. -/
theorem response_framed (steps : List Reply) (r : Response) (cfg : Config) (date : List Nat) (hr : Response.new.run steps = .ok r)
    (hw : ∀ c ∈ saidChunks steps, c.Whole) (hs : saidStatus steps 200 ∈ statuses) (hl : (said steps).length < 2 ^ 64) :
    ∃ lines body, r.send cfg date = .ok (unlines lines ++ [13, 10] ++ body) ∧
      (∀ l ∈ lines, l ≠ []) ∧ (NoBreaks r.headers cfg date → ∀ l ∈ lines, 13 ∉ l) ∧
      (∃ first rest, lines = first :: rest ∧ IsStatusLine (saidStatus steps 200) first) ∧
      (headerOf (str "Content-Length") r.headers = none → str "Content-Length: " ++ number body.length ∈ lines) ∧
      (saidStatus steps 200 ≠ 200 ∧ SaidNothing steps → body ≠ []) ∧
      (saidStatus steps 200 = 200 ∨ ¬ SaidNothing steps → body = said steps) := by
  have ha : After steps r := by simpa using after_run [] steps after_new hr
  have hst := ha.status
  have hemp : r.empty = true ↔ SaidNothing steps := by
    unfold Response.empty SaidNothing
    rw [ha.body, ha.chunks]
    by_cases h0 : saidChunks steps = []
    · cases saidText steps none <;> simp [h0]
    · cases saidText steps none <;> simp [h0]
  by_cases hf : r.status ≠ 200 ∧ r.empty = true
  · -- an error without a body
    have hno := hemp.1 hf.2
    have hc : r.chunks = none := by rw [ha.chunks, if_pos hno.2]
    have hb : r.body = none ∨ r.body = some [] := by
      have := hno.1
      rw [← ha.body] at this
      cases h : r.body with
      | none => exact Or.inl rfl
      | some b => rw [h] at this; simp at this; rw [this]; exact Or.inr rfl
    have hfill : r.fill = .ok { r with body := some ((statusText r.status).drop 9) } := by
      unfold Response.fill
      rw [if_pos hf]
      rcases hb with hb | hb
      · simp [Response.step, hb, hc]
      · simp [Response.step, hb]
    have hin : r.status ∈ statuses := by rw [hst]; exact hs
    obtain ⟨reason, h1, h2, h3⟩ := status_line r.status hin
    have hlen : ((statusText r.status).drop 9).length < 2 ^ 64 := by
      have : ∀ s ∈ statuses, (statusText s).length < 100 := by decide +kernel
      have := this _ hin
      rw [List.length_drop]
      omega
    obtain ⟨l1, l2, l3, l4⟩ := lines_shape { r with body := some ((statusText r.status).drop 9) } cfg date hin
    refine ⟨Response.lines { r with body := some ((statusText r.status).drop 9) } cfg date, (statusText r.status).drop 9,
      ?_, l1, l2, ?_, ?_, ?_, ?_⟩
    · rw [Response.send, hfill, ← head_lines]; rfl
    · rw [← hst]; exact l3
    · intro hcl
      have := l4 hcl
      have e : Response.size { r with body := some ((statusText r.status).drop 9) } = ((statusText r.status).drop 9).length :=
        Nat.mod_eq_of_lt hlen
      rw [e] at this
      exact this
    · intro _
      rw [h3]
      have : (str "HTTP/1.1 ").length = 9 := rfl
      rw [List.append_assoc, List.append_assoc, List.drop_left' this]
      simp
    · rintro (h | h)
      · exact absurd (hst.trans h) hf.1
      · exact absurd hno h
  · have hfill : r.fill = .ok r := by unfold Response.fill; rw [if_neg hf]
    obtain ⟨l1, l2, l3, l4⟩ := lines_shape r cfg date (by rw [hst]; exact hs)
    refine ⟨r.lines cfg date, said steps, ?_, l1, l2, ?_, ?_, ?_, fun _ => rfl⟩
    · rw [Response.send, hfill, Out.bind_ok, stream_said ha hw, ← head_lines]; rfl
    · rw [← hst]; exact l3
    · intro hcl
      have := l4 hcl
      rwa [size_said ha hw hl] at this
    · rintro ⟨h1, h2⟩
      exact absurd ⟨hst ▸ h1, hemp.2 h2⟩ hf

/-- A page in two chunks, the second from the middle of a file; and an error without a text. -/
def page : List Reply := [.header (str "X") (str "y"), .chunk (.text (str "ab")), .chunk (.file (str "0123456") 3 2)]

def samplecfg : Config := ⟨str "cxy", 0, 0⟩

example : (Response.new.run page).bind (·.send samplecfg (str "now")) =
    .ok (str "HTTP/1.1 200 OK\x0d\x0aX: y\x0d\x0aServer: cxy\x0d\x0aDate: now\x0d\x0aContent-Length: 5\x0d\x0a\x0d\x0aab234") := by
  decide +kernel
example : said page = str "ab234" ∧ saidStatus page 200 ∈ statuses := by decide
example : ∀ c ∈ saidChunks page, c.Whole := by simp [page, saidChunks, Chunk.Whole, str]
example : (Response.new.run [.finish 404]).bind (·.send samplecfg (str "now")) =
    .ok (str "HTTP/1.1 404 Not Found\x0d\x0aServer: cxy\x0d\x0aDate: now\x0d\x0aContent-Length: 13\x0d\x0a\x0d\x0a404 Not Found") := by
  decide +kernel

/-! ## Responses that have no body -/

/-- **C106 (partial).** A successful response to which the handler gave nothing is sent without a body, and announces
none.  The full statement is about every response for which the handler gave nothing and whose status says that it has
no body; `no_content_has_body` shows that it fails for all of the others. -/
theorem empty_ok_partial (steps : List Reply) (r : Response) (cfg : Config) (date : List Nat) (hr : Response.new.run steps = .ok r)
    (hs : saidStatus steps 200 = 200) (hn : SaidNothing steps) (hcl : headerOf (str "Content-Length") r.headers = none) :
    ∃ lines, r.send cfg date = .ok (unlines lines ++ [13, 10]) ∧ (∀ l ∈ lines, l ≠ []) ∧ str "Content-Length: 0" ∈ lines := by
  have hsaid : said steps = [] := by
    have h1 := hn.1
    have h2 := hn.2
    unfold said
    rw [h2]
    cases h : saidText steps none with
    | none => rfl
    | some t => rw [h] at h1; exact h1
  obtain ⟨head, body, h1, h2, _, _, h3, _, h5⟩ := response_framed steps r cfg date hr (by rw [hn.2]; simp) (by rw [hs]; decide)
    (by rw [hsaid]; simp)
  have hb := h5 (Or.inl hs)
  rw [hsaid] at hb
  subst hb
  exact ⟨head, by simpa using h1, h2, h3 hcl⟩

example : SaidNothing [.header (str "X") (str "y")] := ⟨rfl, rfl⟩

/-- **C106, negation.** A response with a status that says that there is no body (`100 Continue`, `101 Switching
Protocols`, `204 No Content`, `205 Reset Content`, `304 Not Modified`), for which the handler gave nothing, is sent with
a body all the same.  The peer, who expects none, reads it as the start of the next response. -/
theorem no_content_has_body (steps : List Reply) (r : Response) (cfg : Config) (date : List Nat) (hr : Response.new.run steps = .ok r)
    (hs : saidStatus steps 200 ∈ [100, 101, 204, 205, 304]) (hn : SaidNothing steps) :
    ∃ lines body, r.send cfg date = .ok (unlines lines ++ [13, 10] ++ body) ∧ (∀ l ∈ lines, l ≠ []) ∧
      (NoBreaks r.headers cfg date → ∀ l ∈ lines, 13 ∉ l) ∧ body ≠ [] := by
  have hsaid : said steps = [] := by
    have h1 := hn.1
    have h2 := hn.2
    unfold said
    rw [h2]
    cases h : saidText steps none with
    | none => rfl
    | some t => rw [h] at h1; exact h1
  have hin : ∀ s ∈ [100, 101, 204, 205, 304], s ∈ statuses ∧ s ≠ 200 := by decide
  obtain ⟨head, body, h1, h2, h3, _, _, h4, _⟩ := response_framed steps r cfg date hr (by rw [hn.2]; simp) (hin _ hs).1
    (by rw [hsaid]; simp)
  exact ⟨head, body, h1, h2, h3, h4 ⟨(hin _ hs).2, hn⟩⟩

example : (Response.new.run [.finish 204]).bind (·.send samplecfg (str "now")) =
    .ok (str "HTTP/1.1 204 No Content\x0d\x0aServer: cxy\x0d\x0aDate: now\x0d\x0aContent-Length: 14\x0d\x0a\x0d\x0a204 No Content") := by
  decide +kernel

end Verif.Http
