import Verif.Driver.CImport.Model

/-!
# Importing C headers: what holds of layouts and constants

`layout_partial`: records built from types the importer knows exactly keep their size,
alignment and the offsets of their fields.  `scalar_iff`: which types lose it.
`bools_grow`, `flexible_grows`: structures that get another layout.
`constants_partial`: constants that are numbers of their type's signed range, or other
names of earlier ones, have their values; `unsigned_negative`, `expression_missing`,
`later_alias_missing`, `redefined_stale`, `undef_kept`: the others.
-/

namespace Verif.CImport

/-! ### Layout -/

mutual
/-- The types whose layout the importer keeps. -/
def CTy.exact (signedChar : Bool) : CTy → Bool
  | .bool | .float16 | .longDouble => false
  | .char => signedChar
  | .array t _ => t.exact signedChar
  | .flexible _ => false
  | .enum_ wide known => !wide || known
  | .other s a => s == 4 && a == 4
  | .struct _ aligned fs => aligned == 0 && fs.exact signedChar
  | .union fs => fs.exact signedChar
  | _ => true
def Fields.exact (signedChar : Bool) : Fields → Bool
  | .nil => true
  | .cons t fs => t.exact signedChar && fs.exact signedChar
end

mutual
theorem align_emit (sc : Bool) : ∀ t : CTy, t.exact sc = true → (t.emit sc).align = t.align
  | .array t n, h => by
      simp only [CTy.emit, CTy.align]
      exact align_emit sc t (by simpa [CTy.exact] using h)
  | .struct p a fs, h => by
      simp only [CTy.exact, Bool.and_eq_true, beq_iff_eq] at h
      simp only [CTy.emit, CTy.align, h.1, falign_emit sc fs p h.2]
  | .union fs, h => by
      simp only [CTy.exact] at h
      simp only [CTy.emit, CTy.align, falign_emit sc fs false h]
  | .enum_ w k, h => by
      cases w <;> cases k <;> simp_all [CTy.exact, CTy.emit, CTy.align]
  | .other s a, h => by
      simp only [CTy.exact, Bool.and_eq_true, beq_iff_eq] at h
      simp [CTy.emit, CTy.align, h.2]
  | .char, h => by
      simp only [CTy.exact] at h
      subst h
      simp [CTy.emit, CTy.align]
  | .bool, h | .float16, h | .longDouble, h | .flexible _, h => by simp [CTy.exact] at h
  | .schar, _ | .uchar, _ | .short, _ | .ushort, _ | .int, _ | .uint, _ | .long, _ | .ulong, _
  | .longlong, _ | .ulonglong, _ | .float, _ | .double, _ | .pointer, _ => rfl
theorem falign_emit (sc : Bool) : ∀ (fs : Fields) (p : Bool), fs.exact sc = true →
    (fs.emit sc).align p = fs.align p
  | .nil, _, _ => rfl
  | .cons t fs, p, h => by
      simp only [Fields.exact, Bool.and_eq_true] at h
      simp only [Fields.emit, Fields.align, align_emit sc t h.1, falign_emit sc fs p h.2]
end

mutual
theorem size_emit (sc : Bool) : ∀ t : CTy, t.exact sc = true → (t.emit sc).size = t.size
  | .array t n, h => by
      simp only [CTy.emit, CTy.size]
      rw [size_emit sc t (by simpa [CTy.exact] using h)]
  | .struct p a fs, h => by
      simp only [CTy.exact, Bool.and_eq_true, beq_iff_eq] at h
      simp only [CTy.emit, CTy.size, h.1, falign_emit sc fs p h.2, stop_emit sc fs p 0 h.2]
  | .union fs, h => by
      simp only [CTy.exact] at h
      simp only [CTy.emit, CTy.size, falign_emit sc fs false h, widest_emit sc fs h]
  | .enum_ w k, h => by
      cases w <;> cases k <;> simp_all [CTy.exact, CTy.emit, CTy.size]
  | .other s a, h => by
      simp only [CTy.exact, Bool.and_eq_true, beq_iff_eq] at h
      simp [CTy.emit, CTy.size, h.1]
  | .char, h => by
      simp only [CTy.exact] at h
      subst h
      simp [CTy.emit, CTy.size]
  | .bool, h | .float16, h | .longDouble, h | .flexible _, h => by simp [CTy.exact] at h
  | .schar, _ | .uchar, _ | .short, _ | .ushort, _ | .int, _ | .uint, _ | .long, _ | .ulong, _
  | .longlong, _ | .ulonglong, _ | .float, _ | .double, _ | .pointer, _ => rfl
theorem stop_emit (sc : Bool) : ∀ (fs : Fields) (p : Bool) (n : Nat), fs.exact sc = true →
    (fs.emit sc).stop p n = fs.stop p n
  | .nil, _, _, _ => rfl
  | .cons t fs, p, n, h => by
      simp only [Fields.exact, Bool.and_eq_true] at h
      simp only [Fields.emit, Fields.stop, align_emit sc t h.1, size_emit sc t h.1,
        stop_emit sc fs p _ h.2]
theorem widest_emit (sc : Bool) : ∀ fs : Fields, fs.exact sc = true →
    (fs.emit sc).widest = fs.widest
  | .nil, _ => rfl
  | .cons t fs, h => by
      simp only [Fields.exact, Bool.and_eq_true] at h
      simp only [Fields.emit, Fields.widest, size_emit sc t h.1, widest_emit sc fs h.2]
end

theorem offsets_emit (sc : Bool) : ∀ (fs : Fields) (p : Bool) (n : Nat), fs.exact sc = true →
    (fs.emit sc).offsets p n = fs.offsets p n
  | .nil, _, _, _ => rfl
  | .cons t fs, p, n, h => by
      simp only [Fields.exact, Bool.and_eq_true] at h
      simp only [Fields.emit, Fields.offsets, align_emit sc t h.1, size_emit sc t h.1,
        offsets_emit sc fs p _ h.2]

/-- A structure or union whose fields — at any depth — are of the types the importer knows
exactly is written with the size, the alignment and the offsets of the header.  Missing:
the other types (`scalar_iff`, `bools_grow`, `flexible_grows`, `aligned_lost`). -/
theorem layout_partial (sc p : Bool) (fs : Fields) (h : fs.exact sc = true) :
    ((CTy.struct p 0 fs).emit sc).size = (CTy.struct p 0 fs).size
    ∧ ((CTy.struct p 0 fs).emit sc).align = (CTy.struct p 0 fs).align
    ∧ (fs.emit sc).offsets p 0 = fs.offsets p 0
    ∧ ((CTy.union fs).emit sc).size = (CTy.union fs).size
    ∧ ((CTy.union fs).emit sc).align = (CTy.union fs).align := by
  have hs : (CTy.struct p 0 fs).exact sc = true := by simp [CTy.exact, h]
  have hu : (CTy.union fs).exact sc = true := by simp [CTy.exact, h]
  exact ⟨size_emit sc _ hs, align_emit sc _ hs, offsets_emit sc _ _ _ h, size_emit sc _ hu,
    align_emit sc _ hu⟩

/-- Types that are neither records nor arrays. -/
def CTy.simple : CTy → Bool
  | .array _ _ | .struct _ _ _ | .union _ => false
  | _ => true

/-- Among the other types the importer keeps size and alignment exactly of: the integers,
`float`, `double`, pointers, plain `char` where it is signed, enumerations of four bytes
or known ones, and unknown types that happen to look like an `int`. -/
theorem scalar_iff (sc : Bool) (t : CTy) (h : t.simple = true) :
    ((t.emit sc).size = t.size ∧ (t.emit sc).align = t.align) ↔
      (t ∈ [CTy.schar, .uchar, .short, .ushort, .int, .uint, .long, .ulong, .longlong,
            .ulonglong, .float, .double, .pointer]
       ∨ t = .char ∧ sc = true
       ∨ (∃ w k, t = .enum_ w k ∧ (w = false ∨ k = true))
       ∨ t = .other 4 4) := by
  cases t <;> cases sc <;> simp_all [CTy.simple, CTy.emit, CTy.size, CTy.align]
  all_goals first
    | omega
    | (rename_i w k; cases w <;> cases k <;> simp [CTy.size, CTy.align])

/-- `n` fields of one type. -/
def Fields.rep (t : CTy) : Nat → Fields
  | 0 => .nil
  | n + 1 => .cons t (Fields.rep t n)

theorem up_one (n : Nat) : up n 1 = n := by simp [up]
theorem up_four (n : Nat) : up (4 * n) 4 = 4 * n := by unfold up; omega

theorem rep_bool_stop (n : Nat) : ∀ m, (Fields.rep .bool n).stop false m = m + n := by
  induction n with
  | zero => intro m; rfl
  | succ n ih =>
      intro m
      simp only [Fields.rep, Fields.stop, ih, fieldAlign, CTy.align, CTy.size]
      simp [up_one]
      omega
theorem rep_int_stop (n : Nat) : ∀ m, (Fields.rep .int n).stop false (4 * m) = 4 * (m + n) := by
  induction n with
  | zero => intro m; rfl
  | succ n ih =>
      intro m
      simp only [Fields.rep, Fields.stop, fieldAlign, CTy.align, CTy.size]
      simp only [Bool.false_eq_true, if_false, up_four]
      rw [show 4 * m + 4 = 4 * (m + 1) from by omega, ih]
      omega
theorem rep_emit (sc : Bool) (n : Nat) : (Fields.rep .bool n).emit sc = Fields.rep .int n := by
  induction n with
  | zero => rfl
  | succ n ih => simp [Fields.rep, Fields.emit, CTy.emit, ih]
theorem rep_bool_align (n : Nat) : (Fields.rep .bool n).align false = 1 := by
  induction n with
  | zero => rfl
  | succ n ih => simp [Fields.rep, Fields.align, CTy.align, fieldAlign, ih]
theorem rep_int_align (n : Nat) (h : n ≠ 0) : (Fields.rep .int n).align false = 4 := by
  induction n with
  | zero => exact absurd rfl h
  | succ n ih =>
      by_cases hn : n = 0
      · subst hn; simp [Fields.rep, Fields.align, CTy.align, fieldAlign]
      · simp [Fields.rep, Fields.align, CTy.align, fieldAlign, ih hn]

/-- A structure of `n` truth values has `n` bytes in C; cxy believes it has `4 n`. -/
theorem bools_grow (sc : Bool) (n : Nat) (h : n ≠ 0) :
    (CTy.struct false 0 (Fields.rep .bool n)).size = n
    ∧ ((CTy.struct false 0 (Fields.rep .bool n)).emit sc).size = 4 * n := by
  constructor
  · simp only [CTy.size, rep_bool_stop, rep_bool_align]
    simp [up_one]
  · simp only [CTy.emit, CTy.size, rep_emit, rep_int_align n h]
    have := rep_int_stop n 0
    simp only [Nat.mul_zero, Nat.zero_add] at this
    rw [this]
    simp [up_four]

/-- `__attribute__((aligned(n)))` is lost. -/
theorem aligned_lost (sc p : Bool) (a : Nat) (fs : Fields) (h : fs.exact sc = true)
    (ha : fs.align p < a) :
    (CTy.struct p a fs).align = a
    ∧ ((CTy.struct p a fs).emit sc).align = fs.align p := by
  refine ⟨?_, ?_⟩
  · simp only [CTy.align]; omega
  · simp only [CTy.emit, CTy.align, falign_emit sc fs p h]; omega

/-! #### Flexible arrays -/

theorem le_up (n a : Nat) (h : 0 < a) : n ≤ up n a := by
  unfold up
  have := Nat.div_add_mod (n + a - 1) a
  have := Nat.mod_lt (n + a - 1) h
  rw [Nat.mul_comm]
  omega
theorem dvd_up (n a : Nat) : a ∣ up n a := Nat.dvd_mul_left _ _
theorem up_le {n a m : Nat} (ha : 0 < a) (hd : a ∣ m) (h : n ≤ m) : up n a ≤ m := by
  obtain ⟨k, rfl⟩ := hd
  unfold up
  have : (n + a - 1) / a ≤ k := by
    rw [← Nat.lt_add_one_iff]
    apply Nat.div_lt_of_lt_mul
    rw [Nat.mul_add]
    omega
  rw [Nat.mul_comm]
  exact Nat.mul_le_mul_left _ this

/-- The alignments of exact types. -/
def good (a : Nat) : Prop := a = 1 ∨ a = 2 ∨ a = 4 ∨ a = 8

theorem good_max {a b : Nat} (ha : good a) (hb : good b) : good (max a b) := by
  unfold good at *; omega

mutual
theorem align_good (sc : Bool) : ∀ t : CTy, t.exact sc = true → good t.align
  | .array t n, h => align_good sc t (by simpa [CTy.exact] using h)
  | .struct p a fs, h => by
      simp only [CTy.exact, Bool.and_eq_true, beq_iff_eq] at h
      have := falign_good sc fs p h.2
      simp only [CTy.align, h.1]
      simpa using this
  | .union fs, h => by
      simp only [CTy.exact] at h
      exact falign_good sc fs false h
  | .enum_ w k, h => by cases w <;> simp [CTy.align, good]
  | .other s a, h => by
      simp only [CTy.exact, Bool.and_eq_true, beq_iff_eq] at h
      simp [CTy.align, h.2, good]
  | .char, _ => by simp [CTy.align, good]
  | .bool, h | .float16, h | .longDouble, h | .flexible _, h => by simp [CTy.exact] at h
  | .schar, _ | .uchar, _ | .short, _ | .ushort, _ | .int, _ | .uint, _ | .long, _ | .ulong, _
  | .longlong, _ | .ulonglong, _ | .float, _ | .double, _ | .pointer, _ => by
      simp [CTy.align, good]
theorem falign_good (sc : Bool) : ∀ (fs : Fields) (p : Bool), fs.exact sc = true →
    good (fs.align p)
  | .nil, _, _ => by simp [Fields.align, good]
  | .cons t fs, p, h => by
      simp only [Fields.exact, Bool.and_eq_true] at h
      have h1 := align_good sc t h.1
      have h2 := falign_good sc fs p h.2
      simp only [Fields.align, fieldAlign]
      cases p
      · exact good_max h1 h2
      · exact good_max (by simp [good]) h2
end

def Fields.snoc : Fields → CTy → Fields
  | .nil, t => .cons t .nil
  | .cons u fs, t => .cons u (fs.snoc t)

theorem snoc_stop (p : Bool) (t : CTy) : ∀ (fs : Fields) (n : Nat),
    (fs.snoc t).stop p n = up (fs.stop p n) (fieldAlign p t.align) + t.size
  | .nil, n => rfl
  | .cons u fs, n => by simp only [Fields.snoc, Fields.stop, snoc_stop p t fs]
theorem snoc_align (p : Bool) (t : CTy) : ∀ fs : Fields,
    (fs.snoc t).align p = max (fieldAlign p t.align) (fs.align p)
  | .nil => rfl
  | .cons u fs => by simp only [Fields.snoc, Fields.align, snoc_align p t fs]; omega
theorem snoc_emit (sc : Bool) (t : CTy) : ∀ fs : Fields,
    (fs.snoc t).emit sc = (fs.emit sc).snoc (t.emit sc)
  | .nil => rfl
  | .cons u fs => by simp only [Fields.snoc, Fields.emit, snoc_emit sc t fs]
theorem snoc_offsets (p : Bool) (t : CTy) : ∀ (fs : Fields) (n : Nat),
    (fs.snoc t).offsets p n = fs.offsets p n ++ [up (fs.stop p n) (fieldAlign p t.align)]
  | .nil, n => rfl
  | .cons u fs, n => by
      simp only [Fields.snoc, Fields.offsets, Fields.stop, snoc_offsets p t fs, List.cons_append]

theorem good_pos {a : Nat} (h : good a) : 0 < a := by unfold good at h; omega
theorem good_dvd {a : Nat} (h : good a) : a ∣ 8 := by
  rcases h with h | h | h | h <;> subst h <;> decide

/-- A structure that ends in an array of unknown length (`struct buf { size_t n; char data[]; }`)
is bigger for cxy than it is in C: the array became a pointer of eight bytes.  Reading the
field reads the first bytes of the data as an address. -/
theorem flexible_grows (sc : Bool) (fs : Fields) (t : CTy) (h : fs.exact sc = true)
    (ht : t.exact sc = true) :
    (CTy.struct false 0 (fs.snoc (.flexible t))).size
      < ((CTy.struct false 0 (fs.snoc (.flexible t))).emit sc).size := by
  have ga := falign_good sc fs false h
  have gt := align_good sc t ht
  have ge := good_max gt ga
  simp only [CTy.emit, CTy.size, snoc_emit, snoc_stop, snoc_align, stop_emit sc fs _ _ h,
    falign_emit sc fs _ h, fieldAlign, CTy.align, Nat.zero_max, Nat.add_zero]
  simp only [Bool.false_eq_true, if_false]
  have hle : up (up (fs.stop false 0) t.align) (max t.align (fs.align false))
      ≤ up (fs.stop false 0) 8 := by
    have h8 := dvd_up (fs.stop false 0) 8
    apply up_le (good_pos ge) (Nat.dvd_trans (good_dvd ge) h8)
    apply up_le (good_pos gt) (Nat.dvd_trans (good_dvd gt) h8)
    exact le_up _ 8 (by omega)
  have hpos : 0 < max 8 (fs.align false) := by omega
  have := le_up (up (fs.stop false 0) 8 + 8) (max 8 (fs.align false)) hpos
  omega

/-! ### Constants -/

/-- The preprocessor of C, as the standard has it: the latest definition counts, and names
in the text of a macro are looked up where the macro is used. -/
inductive Def where
  | val (v : Int)
  | name (y : Nat)

/-- The last line about a name: `some none` if it is an `#undef`. -/
def cDefs : List Dir → Nat → Option (Option Def)
  | [], _ => none
  | d :: ds, k =>
    match cDefs ds k with
    | some x => some x
    | none =>
      match d with
      | .num x v _ _ => if k = x then some (some (.val v)) else none
      | .alias x y => if k = x then some (some (.name y)) else none
      | .expr x v => if k = x then some (some (.val v)) else none
      | .undef x => if k = x then some none else none

/-- The value of a name after a header. -/
inductive CVal (ds : List Dir) : Nat → Int → Prop where
  | val {x v} : cDefs ds x = some (some (.val v)) → CVal ds x v
  | name {x y v} : cDefs ds x = some (some (.name y)) → CVal ds y v → CVal ds x v

/-- The name a line defines. -/
def Dir.target : Dir → Option Nat
  | .num x _ _ _ | .alias x _ | .expr x _ => some x
  | .undef _ => none

/-- Headers the importer reads well: every name defined once, numbers in the signed range
of their type, other names only of names defined above. -/
def Tidy : List Nat → List Dir → Prop
  | _, [] => True
  | seen, .num x v w _ :: ds => x ∉ seen ∧ v < 2 ^ (w - 1) ∧ Tidy (x :: seen) ds
  | seen, .alias x y :: ds => x ∉ seen ∧ y ∈ seen ∧ Tidy (x :: seen) ds
  | _, .expr _ _ :: _ => False
  | _, .undef _ :: _ => False

theorem cDefs_append (as bs : List Dir) (k : Nat) :
    cDefs (as ++ bs) k = (match cDefs bs k with | some x => some x | none => cDefs as k) := by
  induction as with
  | nil => simp only [List.nil_append, cDefs]; cases cDefs bs k <;> rfl
  | cons a as ih =>
      simp only [List.cons_append, cDefs, ih]
      cases cDefs bs k <;> rfl

/-- What has been read and what the importer knows. -/
structure Good (pre : List Dir) (seen : List Nat) (t : Tab) : Prop where
  none : ∀ k, k ∉ seen → t k = Option.none ∧ cDefs pre k = Option.none
  some : ∀ k, k ∈ seen → ∃ v, t k = Option.some v ∧ CVal pre k v

theorem cval_extend {pre : List Dir} {d : Dir} {x : Nat}
    (hx : cDefs pre x = none) (hd : ∀ k, k ≠ x → cDefs [d] k = none) {k : Nat} {v : Int}
    (h : CVal pre k v) : CVal (pre ++ [d]) k v := by
  induction h with
  | @val z v hz =>
      refine .val ?_
      have : z ≠ x := fun e => by rw [e, hx] at hz; cases hz
      rw [cDefs_append, hd z this]
      exact hz
  | @name z y v hz _ ih =>
      refine .name ?_ ih
      have : z ≠ x := fun e => by rw [e, hx] at hz; cases hz
      rw [cDefs_append, hd z this]
      exact hz

theorem tidy_good (ds : List Dir) : ∀ (pre : List Dir) (seen : List Nat) (t : Tab),
    Tidy seen ds → Good pre seen t →
    ∃ seen', Good (pre ++ ds) seen' (importHeader ds t)
      ∧ (∀ k, k ∈ seen' ↔ k ∈ seen ∨ ∃ d ∈ ds, d.target = some k) := by
  induction ds with
  | nil =>
      intro pre seen t _ hg
      exact ⟨seen, by simpa [importHeader] using hg, fun k => by simp⟩
  | cons d ds ih =>
      intro pre seen t ht hg
      have key : ∀ x, d.target = some x → x ∉ seen → Tidy (x :: seen) ds →
          Good (pre ++ [d]) (x :: seen) (importDir t d) →
          ∃ seen', Good (pre ++ d :: ds) seen' (importHeader (d :: ds) t)
            ∧ (∀ k, k ∈ seen' ↔ k ∈ seen ∨ ∃ e ∈ d :: ds, e.target = some k) := by
        intro x hx _ ht' hg'
        obtain ⟨s', h1, h2⟩ := ih _ _ _ ht' hg'
        refine ⟨s', by simpa [importHeader] using h1, fun k => ?_⟩
        rw [h2, List.mem_cons]
        constructor
        · rintro ((rfl | h) | ⟨e, he, h⟩)
          · exact .inr ⟨d, List.mem_cons_self .., hx⟩
          · exact .inl h
          · exact .inr ⟨e, List.mem_cons_of_mem _ he, h⟩
        · rintro (h | ⟨e, he, h⟩)
          · exact .inl (.inr h)
          · rcases List.mem_cons.mp he with rfl | he
            · rw [hx] at h; cases h; exact .inl (.inl rfl)
            · exact .inr ⟨e, he, h⟩
      cases d with
      | num x v w u =>
          obtain ⟨hx, hv, ht'⟩ := ht
          refine key x rfl hx ht' ⟨fun k hk => ?_, fun k hk => ?_⟩
          · simp only [List.mem_cons, not_or] at hk
            have := hg.none k hk.2
            simp [importDir, hk.1, this.1, cDefs_append, cDefs, this.2]
          · by_cases hkx : k = x
            · subst hkx
              refine ⟨v, by simp [importDir, sext, hv], .val ?_⟩
              simp [cDefs_append, cDefs]
            · have hks : k ∈ seen := by simpa [hkx] using hk
              obtain ⟨r, h1, h2⟩ := hg.some k hks
              refine ⟨r, by simp [importDir, hkx, h1], ?_⟩
              exact cval_extend (x := x) (hg.none x hx).2
                (fun z hz => by simp [cDefs, hz]) h2
      | alias x y =>
          obtain ⟨hx, hy, ht'⟩ := ht
          obtain ⟨r, h1, h2⟩ := hg.some y hy
          have hyx : y ≠ x := fun e => hx (e ▸ hy)
          refine key x rfl hx ht' ⟨fun k hk => ?_, fun k hk => ?_⟩
          · simp only [List.mem_cons, not_or] at hk
            have := hg.none k hk.2
            simp [importDir, h1, hk.1, this.1, cDefs_append, cDefs, this.2]
          · have hext : ∀ {k v}, CVal pre k v → CVal (pre ++ [Dir.alias x y]) k v :=
              fun h => cval_extend (x := x) (hg.none x hx).2
                (fun z hz => by simp [cDefs, hz]) h
            by_cases hkx : k = x
            · subst hkx
              refine ⟨r, by simp [importDir, h1], .name ?_ (hext h2)⟩
              simp [cDefs_append, cDefs]
            · have hks : k ∈ seen := by simpa [hkx] using hk
              obtain ⟨q, h3, h4⟩ := hg.some k hks
              exact ⟨q, by simp [importDir, h1, hkx, h3], hext h4⟩
      | expr x v => exact ht.elim
      | undef x => exact ht.elim

/-- After a tidy header exactly its names are known, each with the value it has in C.
Missing: expressions of several tokens, unsigned numbers with the top bit set, names
defined again or in another order. -/
theorem constants_partial (ds : List Dir) (h : Tidy [] ds) (k : Nat) :
    (∀ v, importHeader ds (fun _ => none) k = some v → CVal ds k v)
    ∧ ((importHeader ds (fun _ => none) k).isSome ↔ ∃ d ∈ ds, d.target = some k) := by
  obtain ⟨s, hg, hs⟩ := tidy_good ds [] [] (fun _ => none) h
    ⟨fun _ _ => ⟨rfl, rfl⟩, fun k hk => absurd hk (by simp)⟩
  simp only [List.nil_append] at hg
  by_cases hk : k ∈ s
  · obtain ⟨v, h1, h2⟩ := hg.some k hk
    refine ⟨fun w hw => ?_, ?_⟩
    · rw [h1] at hw; cases hw; exact h2
    · rw [h1]
      have := (hs k).mp hk
      simp only [List.not_mem_nil, false_or] at this
      exact ⟨fun _ => this, fun _ => rfl⟩
  · have hn := (hg.none k hk).1
    refine ⟨fun w hw => (by rw [hn] at hw; cases hw), ?_⟩
    rw [hn]
    constructor
    · intro h; cases h
    · intro h; exact absurd ((hs k).mpr (.inr h)) hk

/-- A number is imported with its value exactly if its top bit is not set: 0xFFFFFFFF is
imported as -1. -/
theorem number_iff (t : Tab) (x v w : Nat) (u : Bool) :
    importDir t (.num x v w u) x = some (v : Int) ↔ v < 2 ^ (w - 1) := by
  simp only [importDir, if_pos, sext]
  constructor
  · intro h
    by_cases hv : v < 2 ^ (w - 1)
    · exact hv
    · rw [if_neg hv] at h
      have h' : (v : Int) - 2 ^ w = v := by simpa using h
      have : (0 : Int) < 2 ^ w := Int.pow_pos (by omega)
      omega
  · intro h
    rw [if_pos h]

/-- The number becomes negative. -/
theorem unsigned_negative (t : Tab) (x v w : Nat) (u : Bool)
    (h1 : 2 ^ (w - 1) ≤ v) (h2 : v < 2 ^ w) :
    ∃ r : Int, r < 0 ∧ importDir t (.num x v w u) x = some r := by
  refine ⟨(v : Int) - 2 ^ w, ?_, ?_⟩
  · have : (v : Int) < 2 ^ w := by exact_mod_cast h2
    omega
  · simp only [importDir, if_pos, sext]
    rw [if_neg (by omega)]

theorem import_append (as bs : List Dir) (t : Tab) :
    importHeader (as ++ bs) t = importHeader bs (importHeader as t) := by
  induction as generalizing t with
  | nil => rfl
  | cons a as ih => exact ih _

/-- A name that is only ever defined by expressions — `(-1)`, `1 << 4` — is
unknown. -/
theorem expression_missing (ds : List Dir) : ∀ (t : Tab) (x : Nat), t x = none →
    (∀ d ∈ ds, d.target = some x → ∃ v, d = .expr x v) → importHeader ds t x = none := by
  induction ds with
  | nil => intro t x h _; exact h
  | cons d ds ih =>
      intro t x h hd
      refine ih _ x ?_ (fun e he => hd e (List.mem_cons_of_mem _ he))
      have hx := hd d (List.mem_cons_self ..)
      cases d with
      | num y v w u =>
          by_cases e : y = x
          · obtain ⟨_, h'⟩ := hx (by simp [Dir.target, e]); cases h'
          · simp [importDir, Ne.symm e, h]
      | alias y z =>
          by_cases e : y = x
          · obtain ⟨_, h'⟩ := hx (by simp [Dir.target, e]); cases h'
          · simp only [importDir]
            cases t z with
            | none => exact h
            | some v => simp [Ne.symm e, h]
      | expr y v => exact h
      | undef y => exact h

/-- A name for one that is defined further down is unknown, though C knows it. -/
theorem later_alias_missing (x y v w : Nat) (u : Bool) (h : x ≠ y) :
    importHeader [.alias x y, .num y v w u] (fun _ => none) x = none
    ∧ CVal [.alias x y, .num y v w u] x v := by
  refine ⟨by simp [importHeader, importDir, h], .name (y := y) ?_ (.val ?_)⟩
  · simp [cDefs, h]
  · simp [cDefs]

/-- A name keeps its old value when it is defined again as an expression, and a name for it
keeps the old one when it is defined again at all. -/
theorem redefined_stale (x y a b w : Nat) (e : Int) (u : Bool) (h : x ≠ y)
    (ha : a < 2 ^ (w - 1)) :
    (importHeader [.num x a w u, .expr x e] (fun _ => none) x = some (a : Int)
      ∧ CVal [.num x a w u, .expr x e] x e)
    ∧ (importHeader [.num x a w u, .alias y x, .num x b w u] (fun _ => none) y = some (a : Int)
      ∧ CVal [.num x a w u, .alias y x, .num x b w u] y b) := by
  refine ⟨⟨by simp [importHeader, importDir, sext, ha], .val (by simp [cDefs])⟩,
    ⟨by simp [importHeader, importDir, sext, ha, h.symm], .name (y := x) ?_ (.val ?_)⟩⟩
  · simp [cDefs, h.symm]
  · simp [cDefs]

/-- A name that is taken back by `#undef` stays known. -/
theorem undef_kept (ds : List Dir) (t : Tab) (x : Nat) :
    importHeader (ds ++ [.undef x]) t x = importHeader ds t x
    ∧ ∀ v, ¬ CVal (ds ++ [.undef x]) x v := by
  refine ⟨by rw [import_append]; rfl, fun v h => ?_⟩
  have hx : cDefs (ds ++ [.undef x]) x = some none := by simp [cDefs_append, cDefs]
  cases h with
  | val h => rw [hx] at h; cases h
  | name h _ => rw [hx] at h; cases h

/-! ### Cases -/

-- struct { int a; struct { char c; double d; } b; char tail[3]; }
example : (Fields.cons .int (.cons (.struct false 0 (.cons .char (.cons .double .nil)))
    (.cons (.array .char 3) .nil))).exact true = true := by rfl
example : (Fields.cons .int (.cons (.struct false 0 (.cons .char (.cons .double .nil)))
    (.cons (.array .char 3) .nil))).offsets false 0 = [0, 8, 24] := by
  simp [Fields.offsets, Fields.stop, Fields.align, CTy.align, CTy.size, up, fieldAlign]
-- struct stat-like packed header
example : (CTy.struct true 0 (.cons .char (.cons .long (.cons .short .nil)))).size = 11 := by
  simp [Fields.stop, Fields.align, CTy.align, CTy.size, up, fieldAlign]
-- the wrong cases
example : (CTy.struct false 0 (.cons .bool (.cons .bool (.cons .int .nil)))).size = 8
    ∧ ((CTy.struct false 0 (.cons .bool (.cons .bool (.cons .int .nil)))).emit true).size = 12 := by
  simp [CTy.emit, Fields.emit, Fields.stop, Fields.align, CTy.align, CTy.size, up, fieldAlign]
example : (Fields.cons .ulong .nil).exact true = true ∧ CTy.char.exact true = true := by
  exact ⟨rfl, rfl⟩
example : (Fields.cons .int .nil).align false < 64 := by
  simp [Fields.align, CTy.align, fieldAlign]
example : CTy.longDouble.simple = true ∧ (CTy.enum_ true false).simple = true := ⟨rfl, rfl⟩
-- #define A 5 / #define B A / #define C 0x7f
example : Tidy [] [.num 0 5 32 false, .alias 1 0, .num 2 127 32 false] := by
  simp [Tidy]
example : importHeader [.num 0 0xFFFFFFFF 32 true] (fun _ => none) 0 = some (-1) := by
  simp [importHeader, importDir, sext]
example : (fun _ => none : Tab) 3 = none
    ∧ ∀ d ∈ [Dir.expr 3 (-1), .alias 4 3], d.target = some 3 → ∃ v, d = .expr 3 v := by
  simp [Dir.target]

end Verif.CImport
