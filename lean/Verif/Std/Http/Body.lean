import Verif.Std.Http.Lines
import Verif.Std.Base64.Props
/-! # Announced and actual lengths of request bodies (C102, C103) -/
namespace Verif.Http

/-! ## Forms -/

/-- The forms that can be built. -/
inductive Built (b : List Nat) : Form → Prop
  | new : Built b (Form.new b)
  | add (f k v) : Built b f → Built b (f.add k v)
  | upload (f u) : Built b f → Built b (f.upload u)

theorem built_multipart {b : List Nat} {f : Form} (h : Built b f) : f.multipart = !f.uploads.isEmpty := by
  induction h with
  | new => rfl
  | add f k v _ ih => exact ih
  | upload f u _ ih => simp [Form.upload]

theorem wrap_add (a b : Nat) : wrap (wrap a + b) = wrap (a + b) := by simp [wrap]

theorem dataSize_eq (b : List Nat) : ∀ (kvs : List (List Nat × List Nat)) (size : Nat),
    wrap (dataSize b.length kvs size) = wrap (size + (kvs.flatMap (dataPart b)).length)
  | [], size => by simp [dataSize]
  | (k, v) :: rest, size => by
    rw [dataSize, dataSize_eq b rest, wrap_add, List.flatMap_cons, List.length_append]
    congr 1
    have : (dataPart b (k, v)).length = 2 + b.length + 8 + disposition.length + 1 + k.length + v.length := by
      have h2 : (str "--").length = 2 := rfl
      have h3 : crlf.length = 2 := rfl
      simp only [dataPart, List.length_append, List.length_cons, List.length_nil, h2, h3]
      omega
    omega

theorem uploadPart_length (b : List Nat) (u : Upload) : (uploadPart b u).length =
    2 + b.length + 4 + disposition.length + u.name.length + dispositionFile.length + u.fileName.length + 1 +
    (if u.contentType.isEmpty then 0 else contentTypeIs.length + u.contentType.length + 2) + 2 + (u.content.length + 2) := by
  have h2 : (str "--").length = 2 := rfl
  have h3 : crlf.length = 2 := rfl
  have h4 : (str "\"").length = 1 := rfl
  simp only [uploadPart, List.length_append, h2, h3, h4]
  split
  · simp only [List.length_nil]; omega
  · simp only [List.length_append, h3]; omega

theorem uploadsSize_eq (b : List Nat) : ∀ (us : List Upload) (size : Nat),
    wrap (uploadsSize b.length us size) = wrap (size + (us.flatMap (uploadPart b)).length)
  | [], size => by simp [uploadsSize]
  | u :: rest, size => by
    rw [uploadsSize, uploadsSize_eq b rest, List.flatMap_cons, List.length_append, uploadPart_length]
    unfold wrap
    split <;> omega

theorem uploadsSize_wrapped (b : Nat) : ∀ (us : List Upload) (size : Nat), us ≠ [] → wrap (uploadsSize b us size) = uploadsSize b us size
  | [], _, h => absurd rfl h
  | [u], size, _ => by simp [uploadsSize, wrap]
  | u :: u' :: rest, size, _ => by
    rw [uploadsSize]
    exact uploadsSize_wrapped b (u' :: rest) _ (by simp)

/-- The announced length of a multipart body is its length. -/
theorem multipart_size (f : Form) : multipartEncodeSize f = wrap (multipartEncode f).length := by
  have h2 : (str "--").length = 2 := rfl
  unfold multipartEncodeSize multipartEncode
  by_cases hu : f.uploads.isEmpty = true
  · simp only [hu, if_true, List.length_append, h2]
    rw [← wrap_add, dataSize_eq, wrap_add]
    congr 1; omega
  · simp only [hu, Bool.false_eq_true, if_false, List.length_append, h2]
    have h1 := uploadsSize_eq f.boundary f.uploads (dataSize f.boundary.length f.data 0)
    have h3 := dataSize_eq f.boundary f.data 0
    rw [← wrap_add, h1, wrap_add, Nat.add_assoc, ← wrap_add, h3, wrap_add]
    congr 1; omega

/-- Is the length even and not zero? -/
def evenLength (s : List Nat) : Nat := if s ≠ [] ∧ s.length % 2 = 0 then 1 else 0

/-- The number of names and values of even positive length. -/
def evens : List (List Nat × List Nat) → Nat
  | [] => 0
  | p :: ps => evenLength p.1 + evenLength p.2 + evens ps

theorem evens_zero : ∀ kvs : List (List Nat × List Nat), (∀ p ∈ kvs, evenLength p.1 = 0 ∧ evenLength p.2 = 0) → evens kvs = 0
  | [], _ => rfl
  | p :: ps, h => by
    have h1 := h p (by simp)
    have h2 := evens_zero ps (fun q hq => h q (by simp [hq]))
    simp [evens, h1, h2]

theorem evens_mem : ∀ (kvs : List (List Nat × List Nat)) (p), p ∈ kvs → evenLength p.1 + evenLength p.2 ≤ evens kvs
  | q :: ps, p, h => by
    rcases List.mem_cons.1 h with rfl | h
    · simp [evens]
    · have := evens_mem ps p h
      simp only [evens]; omega

theorem evens_le : ∀ kvs : List (List Nat × List Nat), evens kvs ≤ 2 * kvs.length
  | [] => by simp [evens]
  | p :: ps => by
    have h1 := evens_le ps
    have h2 : ∀ s, evenLength s ≤ 1 := fun s => by unfold evenLength; split <;> omega
    have h3 := h2 p.1
    have h4 := h2 p.2
    simp only [evens, List.length_cons]; omega

theorem urlEncodeSize_eq (d : List Nat) : Base64.urlEncodeSize d.length = (Base64.urlEncode d).length + evenLength d := by
  unfold evenLength
  split
  · next h => exact Base64.announced_size_wrong d h.2 h.1
  · next h =>
    refine Base64.announced_size_partial d ?_
    by_cases hd : d = []
    · exact Or.inr hd
    · left
      have : d.length % 2 ≠ 0 := fun e => h ⟨hd, e⟩
      omega

theorem formItemsSize_eq : ∀ (kvs : List (List Nat × List Nat)) (size : Nat),
    wrap (formItemsSize kvs size) = wrap (size + (formItems false kvs).length + evens kvs + (2 ^ 64 - 1) * kvs.length)
  | [], size => by simp [formItemsSize, formItems, evens]
  | (k, v) :: rest, size => by
    rw [formItemsSize, formItemsSize_eq rest, formItems]
    have e : evens ((k, v) :: rest) = evenLength k + evenLength v + evens rest := by simp [evens]
    rw [e, urlEncodeSize_eq, urlEncodeSize_eq]
    simp only [List.length_append, List.length_cons, List.length_nil, Bool.false_eq_true, if_false]
    unfold wrap
    rw [Nat.mul_add]
    omega

theorem formItems_first (k v : List Nat) (rest : List (List Nat × List Nat)) :
    (formItems false ((k, v) :: rest)).length = (formItems true ((k, v) :: rest)).length + 1 := by
  simp [formItems]

theorem formItemsSize_wrapped : ∀ (kvs : List (List Nat × List Nat)) (size : Nat), kvs ≠ [] →
    wrap (formItemsSize kvs size) = formItemsSize kvs size
  | [], _, h => absurd rfl h
  | [p], size, _ => by simp [formItemsSize, wrap]
  | p :: p' :: rest, size, _ => by
    obtain ⟨k, v⟩ := p
    rw [formItemsSize]
    exact formItemsSize_wrapped (p' :: rest) _ (by simp)

/-- The announced length of a form is that of its body, and one more for every name or value of even positive length
if the form is not a multipart form. -/
theorem form_size {b : List Nat} {f : Form} (hb : Built b f) :
    f.size = wrap (f.encode.length + if f.multipart then 0 else evens f.data) := by
  have hm := built_multipart hb
  unfold Form.size Form.encode
  by_cases h0 : (f.data.isEmpty && f.uploads.isEmpty) = true
  · simp only [h0, if_true]
    simp only [Bool.and_eq_true, List.isEmpty_iff] at h0
    simp [h0, evens, wrap]
  · rw [if_neg h0, if_neg h0]
    by_cases hmu : f.multipart = true
    · rw [if_pos hmu, if_pos hmu, if_pos hmu, multipart_size]; rfl
    · rw [if_neg hmu, if_neg hmu, if_neg hmu]
      have hu : f.uploads.isEmpty = true := by rw [hm] at hmu; simpa using hmu
      have hd : f.data ≠ [] := by intro e; rw [hu, e] at h0; simp at h0
      rw [← formItemsSize_wrapped _ _ hd, formItemsSize_eq]
      match hf : f.data, hd with
      | (k, v) :: rest, _ =>
        rw [formItems_first]
        unfold wrap
        simp only [List.length_cons]
        omega

/-- **C102 (partial).** The length announced for a form is the number of bytes sent for it: always for forms with
files, and for the others if every name and value is empty or of odd length.  The full statement has no such
condition; `form_length_wrong` shows that it fails whenever the condition does. -/
theorem form_length_partial {b : List Nat} {f : Form} (hb : Built b f)
    (h : f.uploads ≠ [] ∨ ∀ p ∈ f.data, (p.1 = [] ∨ p.1.length % 2 = 1) ∧ (p.2 = [] ∨ p.2.length % 2 = 1))
    (hl : f.encode.length < 2 ^ 64) : f.size = f.encode.length := by
  have hm := built_multipart hb
  rw [form_size hb]
  have he : (if f.multipart then 0 else evens f.data) = 0 := by
    split
    · rfl
    · next hmu =>
      have hu : f.uploads = [] := by rw [hm] at hmu; simpa using hmu
      rcases h with h | h
      · exact absurd hu h
      · refine evens_zero _ fun p hp => ?_
        have hz : ∀ s : List Nat, s = [] ∨ s.length % 2 = 1 → evenLength s = 0 := by
          intro s hs
          unfold evenLength
          rw [if_neg]
          rintro ⟨h3, h4⟩
          rcases hs with h1 | h1
          · exact h3 h1
          · omega
        exact ⟨hz _ (h p hp).1, hz _ (h p hp).2⟩
  rw [he, Nat.add_zero, wrap, Nat.mod_eq_of_lt hl]

/-- **C102, negation.** A form without files announces more bytes than it sends as soon as one of its names or values
has even positive length; the receiver waits for bytes that never come. -/
theorem form_length_wrong {b : List Nat} {f : Form} (hb : Built b f) (hu : f.uploads = []) (p : List Nat × List Nat)
    (hp : p ∈ f.data) (h : (p.1 ≠ [] ∧ p.1.length % 2 = 0) ∨ (p.2 ≠ [] ∧ p.2.length % 2 = 0))
    (hl : f.encode.length + 2 * f.data.length < 2 ^ 64) : f.encode.length < f.size := by
  have hm := built_multipart hb
  have hmu : f.multipart = false := by rw [hm, hu]; rfl
  rw [form_size hb, hmu]
  have h1 : 0 < evens f.data := by
    have := evens_mem f.data p hp
    unfold evenLength at this
    rcases h with h | h
    · rw [if_pos h] at this; omega
    · rw [if_pos h] at this; omega
  have h2 := evens_le f.data
  simp only [Bool.false_eq_true, if_false, wrap]
  rw [Nat.mod_eq_of_lt (by omega)]
  omega

/-- A form with a field and a file. -/
def sampleForm : Form :=
  ((Form.new (str "XX")).add (str "user") (str "ann")).upload ⟨str "f", str "a.txt", str "text/plain", str "hello"⟩

theorem sampleForm_built : Built (str "XX") sampleForm := .upload _ _ (.add _ _ _ .new)

example : sampleForm.size = 165 ∧ sampleForm.encode.length = 165 ∧ sampleForm.uploads ≠ [] := by decide +kernel
example : sampleForm.encode = str "--XX\x0d\x0aContent-Disposition: form-data; name=\"user\"\x0d\x0a\x0d\x0aann\x0d\x0a--XX\x0d\x0aContent-Disposition: form-data; name=\"f\"; filename=\"a.txt\"\x0d\x0aContent-Type: text/plain\x0d\x0a\x0d\x0ahello\x0d\x0a--XX--" := by
  decide +kernel

/-- Odd lengths are announced exactly, and one even length is one byte too many. -/
example : let f := (Form.new (str "XX")).add (str "abc") (str "x"); f.size = 9 ∧ f.encode.length = 9 := by decide
example : let f := (Form.new (str "XX")).add (str "ab") (str "x"); f.size = 7 ∧ f.encode.length = 6 := by decide

/-! ## Requests -/

/-- The content a request carries: what its body, form or file is made of. -/
def Request.content (r : Request) : List Nat :=
  match r.body, r.form, r.file with
  | some b, _, _ => b
  | none, some f, _ => f.encode
  | none, none, some s => (s.content.drop s.offset).take s.count
  | none, none, none => []

/-- At most one of the three ways to give the content is in use, and files are sent whole. -/
def Request.Single (r : Request) : Prop :=
  (r.body.isSome → r.form = none ∧ r.file = none) ∧ (r.form.isSome → r.file = none) ∧
  ∀ s, r.file = some s → s.offset = 0 ∧ s.count = wrap s.content.length

theorem single_new : Request.new.Single := ⟨by simp [Request.new], by simp [Request.new], by simp [Request.new]⟩

theorem single_step {r r' : Request} (s : Step) (h : r.Single) (e : r.step s = some r') : r'.Single := by
  obtain ⟨h1, h2, h3⟩ := h
  cases s with
  | write t =>
    simp only [Request.step] at e
    split at e
    · cases e
    · next hc =>
      simp only [Bool.or_eq_true, not_or, Bool.not_eq_true, Option.isSome_eq_false_iff, Option.isNone_iff_eq_none] at hc
      cases e
      exact ⟨fun _ => hc, by simp [hc.1], by simp [hc.2]⟩
  | body t =>
    simp only [Request.step] at e
    split at e
    · cases e
    · next hc =>
      simp only [Bool.or_eq_true, not_or, Bool.not_eq_true, Option.isSome_eq_false_iff, Option.isNone_iff_eq_none] at hc
      cases e
      exact ⟨fun _ => hc, by simp [hc.1], by simp [hc.2]⟩
  | form f =>
    simp only [Request.step] at e
    split at e
    · cases e
    · next hc =>
      simp only [Bool.or_eq_true, not_or, Bool.not_eq_true, Option.isSome_eq_false_iff, Option.isNone_iff_eq_none] at hc
      cases e
      exact ⟨by simp [Request.setContentType, hc.1.1], by simp [Request.setContentType, hc.1.2], by simp [Request.setContentType, hc.1.2]⟩
  | file c ct =>
    simp only [Request.step] at e
    split at e
    · cases e
    · next hc =>
      simp only [Bool.or_eq_true, not_or, Bool.not_eq_true, Option.isSome_eq_false_iff, Option.isNone_iff_eq_none] at hc
      cases e
      refine ⟨by simp [Request.setContentType, hc.1.1], by simp [Request.setContentType, hc.1.2], ?_⟩
      intro s hs
      simp only [Request.setContentType, Option.some.injEq] at hs
      subst hs
      exact ⟨rfl, rfl⟩
  | header k v => cases e; exact ⟨h1, h2, h3⟩
  | arg k v => cases e; exact ⟨h1, h2, h3⟩

theorem single_run : ∀ (ss : List Step) {r r' : Request}, r.Single → r.run ss = some r' → r'.Single
  | [], r, r', h, e => by cases e; exact h
  | s :: ss, r, r', h, e => by
    rw [Request.run] at e
    cases e1 : r.step s with
    | none => rw [e1] at e; cases e
    | some r1 =>
      rw [e1] at e
      exact single_run ss (single_step s h e1) e

/-- A head of lines, none of them empty, the first of which is the request line, and which announces the length `n`. -/
def IsHead (r : Request) (n : Nat) (head : List Nat) : Prop :=
  ∃ lines, head = unlines ((r.method ++ str " " ++ (if r.resource = [] then str "/" else r.resource) ++ encodeArgs r.args ++
      str " HTTP/1.1") :: lines) ∧
    (∀ l ∈ lines, l ≠ []) ∧ ((∀ h ∈ r.headers, 13 ∉ h.1 ∧ 13 ∉ h.2) → ∀ l ∈ lines, 13 ∉ l) ∧
    (∀ h ∈ r.headers, h.1 ++ str ": " ++ h.2 ∈ lines) ∧ (0 < n → str "Content-Length: " ++ number n ∈ lines)

theorem head_shape (r : Request) (date : List Nat) (hd : 13 ∉ date) : IsHead r r.contentLength (r.head date) := by
  have c0 : ∀ s, s ∈ ["Date: ", "Content-Length: ", ": "] → 13 ∉ str s := by decide
  refine ⟨(r.headers.map fun h => h.1 ++ str ": " ++ h.2) ++
    ((if r.contentLength > 0 then [str "Content-Length: " ++ number r.contentLength] else []) ++ [str "Date: " ++ date]), ?_, ?_, ?_, ?_, ?_⟩
  · have h1 : ∀ a l, unlines (a :: l) = a ++ crlf ++ unlines l := fun a l => by simp [unlines, crlf]
    rw [h1]
    simp only [unlines_append, unlines_if, unlines_headers, h1, Request.head, List.isEmpty_iff]
    simp only [List.append_assoc]
    simp [unlines]
  · intro l hl
    simp only [List.mem_append, List.mem_ite_nil_right, List.mem_cons, List.mem_map, List.not_mem_nil, or_false] at hl
    rcases hl with ⟨h, _, rfl⟩ | (⟨_, rfl⟩ | rfl)
    all_goals simp [str]
  · intro hh l hl
    simp only [List.mem_append, List.mem_ite_nil_right, List.mem_cons, List.mem_map, List.not_mem_nil, or_false] at hl
    rcases hl with ⟨h, hm, rfl⟩ | (⟨_, rfl⟩ | rfl)
    · simp only [List.mem_append, not_or]
      exact ⟨⟨(hh h hm).1, c0 _ (by simp)⟩, (hh h hm).2⟩
    · simp only [List.mem_append, not_or]
      exact ⟨c0 _ (by simp), digit_not_cr _⟩
    · simp only [List.mem_append, not_or]
      exact ⟨c0 _ (by simp), hd⟩
  · intro h hm
    exact List.mem_append_left _ (List.mem_map.2 ⟨h, hm, rfl⟩)
  · intro h
    simp [h]

/-- **C103 (partial).** A request whose builder gave it a text, or a form whose length is announced correctly, is sent
as its head, an empty line, and the content; the head announces the length of the content.  The full statement says
that nothing follows the content and that files are sent as well; `request_has_surplus` and `file_never_sent` show that
both fail. -/
theorem request_carries_content_partial (steps : List Step) (r : Request) (date : List Nat) (hd : 13 ∉ date)
    (hr : Request.new.run steps = some r) (hf : r.file = none)
    (hform : ∀ f, r.form = some f → f.size = f.encode.length) (hl : r.content.length < 2 ^ 64) :
    ∃ head, IsHead r r.content.length head ∧
      r.submit date = head ++ [13, 10] ++ if r.content = [] then [] else r.content ++ [13, 10] := by
  have hs := single_run steps single_new hr
  have hlen : r.contentLength = r.content.length := by
    unfold Request.contentLength Request.content
    unfold Request.content at hl
    cases hb : r.body with
    | some b => simp only [hb] at hl ⊢; exact Nat.mod_eq_of_lt hl
    | none =>
      cases hfo : r.form with
      | some f => simp only [hb, hfo] at hl ⊢; exact hform f hfo
      | none => simp [hf]
  have hpay : r.payload = r.content := by
    unfold Request.payload Request.content
    cases hb : r.body with
    | some b => rfl
    | none =>
      cases hfo : r.form with
      | some f => simp [hf]
      | none => simp [hf]
  refine ⟨r.head date, hlen ▸ head_shape r date hd, ?_⟩
  unfold Request.submit
  split
  · next h =>
    rw [hlen, List.length_eq_zero_iff] at h
    rw [if_pos h]; rfl
  · next h =>
    rw [if_neg (by intro e; rw [hlen, e] at h; exact h rfl), hpay]; rfl

/-- **C103, negation.** Whatever text a request carries, two bytes that its announced length does not cover are sent
after it: they are read as the beginning of the next request on the connection. -/
theorem request_has_surplus (steps : List Step) (r : Request) (date t : List Nat) (hd : 13 ∉ date)
    (hr : Request.new.run steps = some r) (hb : r.body = some t) (h0 : t ≠ []) (hl : t.length < 2 ^ 64) :
    ∃ head, IsHead r t.length head ∧ r.submit date = head ++ [13, 10] ++ t ++ [13, 10] := by
  have hs := single_run steps single_new hr
  obtain ⟨hfo, hfi⟩ := hs.1 (by simp [hb])
  have hc : r.content = t := by simp [Request.content, hb]
  obtain ⟨head, h1, h2⟩ := request_carries_content_partial steps r date hd hr hfi (by simp [hfo]) (by rw [hc]; exact hl)
  rw [hc] at h1 h2
  rw [if_neg h0] at h2
  exact ⟨head, h1, by simpa using h2⟩

/-- **C103, negation.** No byte of a file is ever sent: whatever the file, its length is announced, and the two bytes
that end every request follow the empty line. -/
theorem file_never_sent (steps : List Step) (r : Request) (date : List Nat) (s : SendFile) (hd : 13 ∉ date)
    (hr : Request.new.run steps = some r) (hf : r.file = some s) (h0 : s.content ≠ []) (hl : s.content.length < 2 ^ 64) :
    ∃ head, IsHead r s.content.length head ∧ r.submit date = head ++ [13, 10] ++ [13, 10] := by
  have hs := single_run steps single_new hr
  have hb : r.body = none := by
    cases hb : r.body with
    | none => rfl
    | some b => have := (hs.1 (by simp [hb])).2; rw [hf] at this; cases this
  have hfo : r.form = none := by
    cases hb : r.form with
    | none => rfl
    | some b => have := hs.2.1 (by simp [hb]); rw [hf] at this; cases this
  have hcount : s.count = s.content.length := by
    rw [(hs.2.2 s hf).2]; exact Nat.mod_eq_of_lt hl
  have hlen : r.contentLength = s.content.length := by simp [Request.contentLength, hb, hfo, hf, hcount]
  refine ⟨r.head date, hlen ▸ head_shape r date hd, ?_⟩
  unfold Request.submit
  have : s.content.length ≠ 0 := by simpa using h0
  rw [if_neg (by omega)]
  have : r.payload = [] := by simp [Request.payload, hb, hf, sendFile]
  rw [this]
  rfl

/-- A request with a text, and one with a file. -/
example : (Request.new.run [.header (str "Host") (str "h"), .body (str "hi"), .write (str "!")]).map (·.submit (str "now")) =
    some (str "GET / HTTP/1.1\x0d\x0aHost: h\x0d\x0aContent-Length: 3\x0d\x0aDate: now\x0d\x0a\x0d\x0ahi!\x0d\x0a") := by
  decide +kernel
example : (Request.new.run [.file (str "data") (str "text/plain")]).map (fun r => (r.file, r.submit (str "now"))) =
    some (some ⟨str "data", 4, 0⟩, str "GET / HTTP/1.1\x0d\x0aContent-Type: text/plain\x0d\x0aContent-Length: 4\x0d\x0aDate: now\x0d\x0a\x0d\x0a\x0d\x0a") := by
  decide +kernel

/-! ## Sessions -/

theorem session_same_method (l : List (List Nat × List Nat)) : ∀ (r : Request),
    (l.foldl (fun r h => { r with headers := putHeader h.1 h.2 r.headers }) r).body = r.body := by
  induction l with
  | nil => intro r; rfl
  | cons h t ih => intro r; rw [List.foldl_cons, ih]

theorem session_same_form (l : List (List Nat × List Nat)) : ∀ (r : Request),
    (l.foldl (fun r h => { r with headers := putHeader h.1 h.2 r.headers }) r).form = r.form := by
  induction l with
  | nil => intro r; rfl
  | cons h t ih => intro r; rw [List.foldl_cons, ih]

theorem session_same_file (l : List (List Nat × List Nat)) : ∀ (r : Request),
    (l.foldl (fun r h => { r with headers := putHeader h.1 h.2 r.headers }) r).file = r.file := by
  induction l with
  | nil => intro r; rfl
  | cons h t ih => intro r; rw [List.foldl_cons, ih]

/-- **C104 (partial).** What a session sends for a request does not depend on the requests it sent before, if the
request before was for another resource or had another method.  The full statement has no such condition;
`second_body_ignored` shows that it fails. -/
theorem request_independent_partial (r : Request) (session : List (List Nat × List Nat)) (method resource : List Nat)
    (build : List Step) (h : r.method ≠ method ∨ r.resource ≠ resource) :
    perform r session method resource build =
      perform ⟨method, resource, [], [], none, none, none⟩ session method resource build := by
  unfold perform Request.reset
  rw [if_pos (by rcases h with h | h; exact Or.inl (fun e => h e.symm); exact Or.inr h), if_neg (by simp)]

/-- **C104, negation.** When a session repeats a request for the same resource with the same method, the text given for
the second is ignored and the text of the first is sent again. -/
theorem second_body_ignored (session : List (List Nat × List Nat)) (method resource first second : List Nat) (r0 r1 r2 : Request)
    (h1 : perform r0 session method resource [.body first] = some r1) (h0 : r0.body = none)
    (h2 : perform r1 session method resource [.body second] = some r2) : r1.content = first ∧ r2.content = first := by
  have e1 : r1.body = some first ∧ r1.method = method ∧ r1.resource = resource := by
    have hk : ∀ (l : List (List Nat × List Nat)) (r : Request),
        (l.foldl (fun r h => { r with headers := putHeader h.1 h.2 r.headers }) r).method = r.method ∧
        (l.foldl (fun r h => { r with headers := putHeader h.1 h.2 r.headers }) r).resource = r.resource := by
      intro l
      induction l with
      | nil => intro r; exact ⟨rfl, rfl⟩
      | cons h t ih => intro r; rw [List.foldl_cons]; exact ih _
    have hreset : (r0.reset method resource).body = none ∧ (r0.reset method resource).method = method ∧
        (r0.reset method resource).resource = resource := by
      unfold Request.reset
      split
      · exact ⟨rfl, rfl, rfl⟩
      · next hn =>
        have h1 : method = r0.method := Decidable.byContradiction fun h => hn (Or.inl h)
        have h2 : r0.resource = resource := Decidable.byContradiction fun h => hn (Or.inr h)
        exact ⟨h0, h1.symm, h2⟩
    unfold perform at h1
    simp only [Request.run, Request.step] at h1
    split at h1
    · cases h1
    · cases h1
      obtain ⟨k1, k2⟩ := hk session (r0.reset method resource)
      refine ⟨?_, k1.trans hreset.2.1, k2.trans hreset.2.2⟩
      simp only [session_same_method, hreset.1]
  have e2 : r2.body = some first := by
    unfold perform at h2
    have hr : r1.reset method resource = r1 := by
      unfold Request.reset
      rw [if_neg]
      simp [e1.2.1, e1.2.2]
    simp only [Request.run, Request.step, hr] at h2
    split at h2
    · cases h2
    · cases h2
      simp only [session_same_method, e1.1]
  exact ⟨by simp [Request.content, e1.1], by simp [Request.content, e2]⟩

/-- Two posts to the same resource. -/
example : ∃ r1 r2, perform Request.new [] (str "POST") (str "/log") [.body (str "one")] = some r1 ∧
    perform r1 [] (str "POST") (str "/log") [.body (str "two")] = some r2 ∧ r2.content = str "one" := by
  refine ⟨_, _, rfl, rfl, ?_⟩
  decide

end Verif.Http
