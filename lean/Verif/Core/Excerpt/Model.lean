/-!
# The source line shown under a message (`src/cxy/core/log.c` 150-305)

`src/cxy/core/log.c` 11-12 (the two buffers of 64 bytes), 150-163 `findLineBegin`, 165-179 `findLineEnd`, 181-189 `countDigits`,
191-197 `printEmptySpace`, 199-214 `printFileLine`, 216-225 `printLineMarkers`, 227-230 `isMultilineFileLoc` and 232-302
`printDiagnostic`.

A file is the list of its bytes. The file can be read and a place of the message is not past its end (the places come from reading
the same file). The escape codes of colours are left out, as with `--no-color`: `format` writes nothing for `{$}` then. A
subtraction of two `size_t` wraps.
-/
namespace Verif.Excerpt

/-- A difference of two `size_t`. -/
def sub64 (a b : Nat) : Nat := (a + 2 ^ 64 - b) % 2 ^ 64

/-- log.c 158-161: the last newline among the first `i` bytes of the buffer. -/
def lastNl (data : List Nat) : Nat → Option Nat
  | 0 => none
  | i + 1 => if data.getD i 0 = 10 then some i else lastNl data i

/-- log.c 150-163 `findLineBegin`: pieces of up to 64 bytes, from the place back to the start of the file. -/
def lineBegin (f : List Nat) (off : Nat) : Nat :=
  if off = 0 then 0
  else
    match lastNl ((f.drop (off - min 64 off)).take (min 64 off)) (min 64 off) with
    | some i => off - min 64 off + i + 1
    | none => lineBegin f (off - min 64 off)
termination_by off
decreasing_by omega

/-- log.c 165-179 `findLineEnd`: pieces of 64 bytes, from the place on; a piece that is shorter is the last one. -/
def lineEnd (f : List Nat) (off : Nat) : Nat :=
  match ((f.drop off).take 64).findIdx? (fun b => b == 10) with
  | some i => off + i
  | none => if ((f.drop off).take 64).length < 64 then off + ((f.drop off).take 64).length else lineEnd f (off + 64)
termination_by f.length - off
decreasing_by simp only [List.length_take, List.length_drop] at *; omega

/-- log.c 181-189 `countDigits` -/
def countDigits (n : Nat) : Nat := if n < 10 then 1 else countDigits (n / 10) + 1

/-- log.c 191-197 `printEmptySpace`: four at once, then one by one. -/
def blanks (n : Nat) : List Nat :=
  if 4 ≤ n then [32, 32, 32, 32] ++ List.replicate (n - 4) 32 else List.replicate n 32

/-- `fgets` with room for `n` bytes and the terminator: up to a newline, which is included. -/
def piece : Nat → List Nat → List Nat
  | 0, _ => []
  | _ + 1, [] => []
  | n + 1, b :: bs => if b = 10 then [b] else b :: piece n bs

theorem piece_length_pos (n : Nat) (b : Nat) (bs : List Nat) : 0 < (piece (n + 1) (b :: bs)).length := by
  rw [piece]; split <;> simp

/-- log.c 199-214 `printFileLine`: pieces of up to 63 bytes, written as C strings (up to a zero byte). A piece has at most one
newline, its last byte, which `strrchr` finds unless a zero byte comes before it. -/
def fileLine : List Nat → List Nat
  | [] => [10]
  | b :: bs =>
    let p := piece 63 (b :: bs)
    let s := p.takeWhile (fun c => c != 0)
    if 10 ∈ s then s.takeWhile (fun c => c != 10) ++ [10]
    else s ++ fileLine ((b :: bs).drop p.length)
termination_by l => l.length
decreasing_by
  have : 0 < (piece 63 (b :: bs)).length := piece_length_pos 62 b bs
  simp only [List.length_drop, List.length_cons] at *
  omega

/-- A number as `format` writes it for `{u}`. -/
def dec (n : Nat) : List Nat := if n < 10 then [48 + n] else dec (n / 10) ++ [48 + n % 10]

/-- log.c 216-225 `printLineMarkers` -/
def markers (n : Nat) : List Nat := List.replicate n 94 ++ [10]

/-- log.h 46-54 `FilePos`, without the column. -/
structure Pos where
  row : Nat
  off : Nat
  deriving DecidableEq, Repr

/-- log.c 232-302 `printDiagnostic` -/
def excerpt (f : List Nat) (b e : Pos) : List Nat :=
  let w := countDigits e.row
  let lb := lineBegin f b.off
  blanks (w + 1) ++ [124, 10]
    ++ blanks (sub64 w (countDigits b.row)) ++ dec b.row ++ [32, 124] ++ fileLine (f.drop lb)
    ++ blanks (w + 1) ++ [124] ++ blanks (sub64 b.off lb)
    ++ (if b.row ≠ e.row then
          let le := lineBegin f e.off
          markers (sub64 (lineEnd f b.off) b.off)
            ++ (if b.row + 1 < e.row then blanks w ++ [46, 46, 46, 10] else [])
            ++ dec e.row ++ [32, 124] ++ fileLine (f.drop le)
            ++ blanks (w + 1) ++ [124] ++ markers (sub64 e.off le)
        else markers (sub64 e.off b.off))

end Verif.Excerpt
