import Verif.Core.StrPool.Model
import Verif.Common.Decimal
/-!
# Model of the name builders of `src/cxy/core/strpool.c`

Each builds a string in a fixed-size local buffer and interns it.  The functions below return the
string that is interned.  C strings are lists of bytes without NUL.
-/
namespace Verif.StrPool

inductive Built where
  | ok (s : Str)
  /-- `csAssert0` fails -/
  | abort
  /-- access outside the buffer or the literal -/
  | ub
deriving DecidableEq

/-- strpool.h 18-19 -/
def maxPrefix : Nat := 256
/-- size of the local buffer, strpool.c 93, 112 -/
def bufSize : Nat := 288
/-- `PATH_MAX` on Linux -/
def pathMax : Nat := 4096

/-- strpool.c 91-108 `makeAnonymousVariable`, given the value of the static counter.  Without a
prefix, 19 bytes are copied from a literal that occupies 18. -/
def anonymousName (pre : Option Str) (counter : Nat) : Built :=
  match pre with
  | none => .ub
  | some p =>
    if ¬ p.length < maxPrefix then .abort
    else if (p ++ decimal counter).length < bufSize then .ok (p ++ decimal counter) else .ub

/-- strpool.c 120-126, the loop of `makeStringConcat_`; `buf` is what the buffer holds so far. -/
def concatLoop : Str → List Str → Built
  | buf, [] => if buf.length < bufSize then .ok buf else .ub
  | buf, s :: rest =>
    if ¬ buf.length < maxPrefix then .abort
    else if buf.length + s.length ≤ bufSize then concatLoop (buf ++ s) rest else .ub

/-- strpool.c 110-131 `makeStringConcat_`. -/
def stringConcat (s1 : Str) (rest : List Str) : Built :=
  if ¬ s1.length < maxPrefix then .abort else concatLoop s1 rest

def slash : Byte := 0x2f#8

/-- strpool.c 140-151, the loop of `joinPath_`.  Writing the separator at index `PATH_MAX` cannot
happen (the assertion leaves room for one byte); writing the final NUL there can. -/
def joinLoop : Str → List Str → Built
  | buf, [] => if buf.length < pathMax then .ok buf else .ub
  | buf, s :: rest =>
    if s = [] then joinLoop buf rest
    else if ¬ s.length + buf.length < pathMax then .abort
    else if ¬ rest = [] ∧ s.getLast? ≠ some slash then joinLoop (buf ++ s ++ [slash]) rest
    else joinLoop (buf ++ s) rest

/-- strpool.c 133-155 `joinPath_`. -/
def joinPath (parts : List Str) : Built := joinLoop [] parts

end Verif.StrPool
