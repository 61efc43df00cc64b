import Verif.Common.Mem
/-!
# Removing files and directories

`src/cxy/stdlib/path.cxy` 201-207 (`exists`), 209-230 (`isfile`), 232-253 (`isdir`), 255-267 (`islink`), 344-360 (`isDirEmpty`), 362-384
(`remove`), with `ls` (308-342) as far as
`remove` uses it (not recursive, the callback always returns true).

The file system is a table of objects by number (inodes). A directory is a list of names with the numbers of objects, in the order in
which it is read, without `.` and `..`. A symbolic link is the object it leads to, when all links on the way are followed, or nothing.
A path is a directory and a name in it: the directories on the way are not modelled. Left out: permissions and other errors of the
operating system, other processes, links that lead back to a directory that contains them (the recursion is on a depth; `none` if it is
not enough), paths longer than 1023 bytes (`Verif.Std.Path`).
-/
namespace Verif.FsOps

inductive Inode where
  | file
  | link (target : Option Nat)
  | dir (es : List (Nat × Nat))

abbrev FS := Nat → Inode

/-- The entries of a directory. -/
def FS.entries (fs : FS) (d : Nat) : List (Nat × Nat) := match fs d with
  | .dir es => es
  | _ => []

/-- The object that a name stands for, links not followed. -/
def FS.find (fs : FS) (d name : Nat) : Option Nat := (fs.entries d).lookup name

/-- `stat` follows links. -/
def FS.follow (fs : FS) (i : Nat) : Option Nat := match fs i with
  | .link t => t
  | _ => some i

/-- `unlink` and `rmdir`: the name is taken out of the directory. -/
def FS.unlink (fs : FS) (d name : Nat) : FS := upd fs d (.dir ((fs.entries d).filter (fun e => e.1 != name)))

/-- `rmdir` does not follow links, and wants an empty directory. -/
def FS.rmdir (fs : FS) (d name i : Nat) : FS × Bool := match fs i with
  | .dir [] => (fs.unlink d name, true)
  | _ => (fs, false)

/-- path.cxy 362-384. The second part of the result is whether it returned without an exception. -/
def remove (recursive : Bool) : Nat → FS → Nat → Nat → Option (FS × Bool)
  | 0, _, _, _ => none
  | n + 1, fs, d, name =>
    match fs.find d name with
    /- `isdir` and `exists` are false -/
    | none => some (fs, true)
    | some i =>
      match fs.follow i with
      /- a link that leads nowhere: `access` follows links -/
      | none => some (fs, true)
      | some j =>
        match fs j with
        | .dir [] => some (fs.rmdir d name i)
        | .dir es =>
          if recursive then
            /- 370-373: errors are discarded -/
            match es.foldlM (fun fs e => (remove recursive n fs j e.1).map Prod.fst) fs with
            | none => none
            | some fs' => some (fs'.rmdir d name i)
          /- 366-367 -/
          else some (fs, false)
        /- 379-382 -/
        | _ => some (fs.unlink d name, true)

/-- What `stat` and `lstat` say an object is. -/
inductive Kind where
  | file
  | dir
  | link
  deriving DecidableEq

def Inode.kind : Inode → Kind
  | .file => .file
  | .dir _ => .dir
  | .link _ => .link

def FS.lstat (fs : FS) (i : Nat) : Option Kind := some (fs i).kind

def FS.stat (fs : FS) (i : Nat) : Option Kind := (fs.follow i).map (fun j => (fs j).kind)

/-- 209-230 with `k` = `S_IFREG`, 232-253 with `k` = `S_IFDIR`: of the object that a name stands for. -/
def is (k : Kind) (fs : FS) (i : Nat) : Bool := match fs.stat i with
  | none => false
  | some s =>
    if s = k then true
    else if s = .link then
      match fs.lstat i with
      | none => false
      | some s => decide (s = k)
    else false

/-- 255-267 -/
def islink (fs : FS) (i : Nat) : Bool := match fs.stat i with
  | none => false
  | some s => decide (s = .link)

end Verif.FsOps
