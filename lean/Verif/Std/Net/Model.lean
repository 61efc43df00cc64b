import Verif.Common.Decimal
import Verif.Common.Out

/-!
# Addresses and name lookup

Model of `Address`, `getLocalAddress` and `getRemoteAddress` in `src/cxy/stdlib/net.cxy` (130-427).

An address is 32 bytes, read as `struct sockaddr_in` (family at 0, port at 2, host at 4; 16 bytes) or
`struct sockaddr_in6` (family at 0, port at 2, host at 8; 28 bytes), the layout of Linux on a machine
with the low byte first. What the bytes hold before the constructor runs is a parameter. Texts are
lists of bytes.  The C library is a parameter: `pton4`/`pton6` are `inet_pton` (nothing when the text
is no address of the family), `ntop4`/`ntop6` are `inet_ntop` (nothing for NULL). `getifaddrs` is
assumed to succeed, as are the calls that open the resolver; the configuration files of the resolver
are left out.
-/
namespace Verif.Net

/-- net.cxy 130-134 `IPVersion` -/
inductive Mode where
  | any
  | v4
  | v6
  deriving DecidableEq, Repr

/-- net.cxy 137: `addr: [i8, 32]` as unsigned bytes -/
abbrev Addr := Nat → Nat

/-- sys/socket.h: `AF_UNSPEC`, `AF_INET`, `AF_INET6` -/
def afUnspec : Nat := 0
def afInet : Nat := 2
def afInet6 : Nat := 10

/-- `memcpy` of `l` to offset `off` -/
def put (a : Addr) (off : Nat) (l : List Nat) : Addr :=
  fun i => if off ≤ i ∧ i < off + l.length then l.getD (i - off) 0 else a i

/-- `n` bytes from offset `off` -/
def get (a : Addr) (off n : Nat) : List Nat := (List.range n).map fun i => a (off + i)

/-- a `u16` stored low byte first -/
def put16 (a : Addr) (off v : Nat) : Addr := put a off [v % 256, v / 256 % 256]
def get16 (a : Addr) (off : Nat) : Nat := a off + 256 * a (off + 1)

/-- net.cxy 44-54 `htons`, 81-91 `ntohs`: `__bswap16` -/
def htons (x : Nat) : Nat := x % 256 * 256 + x / 256 % 256

/-- the functions of the C library -/
structure Lib where
  pton4 : List Nat → Option (List Nat)
  pton6 : List Nat → Option (List Nat)
  ntop4 : List Nat → Option (List Nat)
  ntop6 : List Nat → Option (List Nat)

/-- net.cxy 139-141: `Address()` -/
def unset (a : Addr) : Addr := put16 a 0 afUnspec

/-- net.cxy 143-156: `Address(port, mode)`; `INADDR_ANY` and `in6addr_any` are all zero. -/
def wildcard (a : Addr) (port : Nat) (mode : Mode) : Addr :=
  if mode = .any ∨ mode = .v4 then
    put16 (put (put16 a 0 afInet) 4 [0, 0, 0, 0]) 2 (htons port)
  else
    put16 (put (put16 a 0 afInet6) 8 (List.replicate 16 0)) 2 (htons port)

/-- net.cxy 173-185 `parseIpv4` -/
def parseIpv4 (L : Lib) (a : Addr) (ip : List Nat) (port : Nat) : Bool × Addr :=
  match L.pton4 ip with
  | some h => (true, put16 (put16 (put a 4 h) 0 afInet) 2 (htons port))
  | none => (false, put16 a 0 afUnspec)

/-- net.cxy 187-199 `parseIpv6` -/
def parseIpv6 (L : Lib) (a : Addr) (ip : List Nat) (port : Nat) : Bool × Addr :=
  match L.pton6 ip with
  | some h => (true, put16 (put16 (put a 8 h) 0 afInet6) 2 (htons port))
  | none => (false, put16 a 0 afUnspec)

/-- net.cxy 158-171: `Address(ip, port, mode)` -/
def literal (L : Lib) (a : Addr) (ip : List Nat) (port : Nat) : Mode → Addr
  | .any =>
    let r := parseIpv4 L a ip port
    if r.1 then r.2 else (parseIpv6 L r.2 ip port).2
  | .v4 => (parseIpv4 L a ip port).2
  | .v6 => (parseIpv6 L a ip port).2

/-- net.cxy 202 `family` -/
def family (a : Addr) : Nat := get16 a 0

/-- net.cxy 205 `len` -/
def len (a : Addr) : Nat := if family a = afInet then 16 else 28

/-- net.cxy 208-213 `port`: the port is at the same place in both. -/
def port (a : Addr) : Nat := if family a = afInet then htons (get16 a 2) else htons (get16 a 2)

/-- net.cxy 222 `!!` -/
def isSet (a : Addr) : Bool := decide (family a ≠ afUnspec)

/-- "0.0.0.0:0000" -/
def noAddress : List Nat := [48, 46, 48, 46, 48, 46, 48, 58, 48, 48, 48, 48]

/-- net.cxy 224-249 `str` -/
def str (L : Lib) (a : Addr) : List Nat :=
  let rc := if family a = afInet then L.ntop4 (get a 4 4) else L.ntop6 (get a 8 16)
  match rc with
  | some text => text ++ [58] ++ (decimal (port a)).map BitVec.toNat
  | none => noAddress

/-! ## Interfaces of the machine -/

/-- `struct ifaddrs`: the name of the interface and its address, nothing for a NULL pointer; an address
is its family and its bytes. -/
structure Iface where
  name : List Nat
  addr : Option (Nat × List Nat)

/-- net.cxy 268-293: the loop over the interfaces; the addresses found so far. -/
def scan (name : List Nat) : List Iface → Option (List Nat) → Option (List Nat) →
    Out (Option (List Nat) × Option (List Nat))
  | [], v4, v6 => .ok (v4, v6)
  | it :: rest, v4, v6 =>
    match it.addr with
    | none => scan name rest v4 v6
    | some (fam, sa) =>
      if it.name ≠ name then scan name rest v4 v6
      else
        let found : Out (Option (List Nat) × Option (List Nat)) :=
          if fam = afInet then
            if v4.isSome then .abort else .ok (some sa, v6)
          else if fam = afInet6 then
            if v6.isSome then .abort else .ok (v4, some sa)
          else .ok (v4, v6)
        found.bind fun (v4, v6) =>
          if v4.isSome && v6.isSome then .ok (v4, v6) else scan name rest v4 v6

/-- net.cxy 295-313: what is taken according to the mode, with the port put in. -/
def choose (a : Addr) (port : Nat) (mode : Mode) (v4 v6 : Option (List Nat)) : Addr :=
  let v6 := if mode = .v4 then none else v6
  let v4 := if mode = .v6 then none else v4
  match v4, v6 with
  | some sa, _ => put16 (put a 0 (sa.take 16)) 2 (htons port)
  | none, some sa => put16 (put a 0 (sa.take 28)) 2 (htons port)
  | none, none => a

/-- net.cxy 252-317 `getLocalAddress` -/
def localAddress (L : Lib) (ifs : List Iface) (a : Addr) (name : List Nat) (port : Nat) (mode : Mode) : Out Addr :=
  if name = [] then .ok (wildcard a port mode)
  else
    let a := literal L a name port mode
    if isSet a then .ok a
    else (scan name ifs none none).bind fun (v4, v6) => .ok (choose a port mode v4 v6)

/-! ## Names of other machines -/

/-- What `dns_ai_nextent` says when it is called again: `EAGAIN`, `ENOENT`, another error, or an
entry with a family and an address.  It sets the entry to NULL first (dns.c 8100). -/
inductive Answer where
  | again
  | noMore
  | failed
  | entry (fam : Nat) (sa : List Nat)

/-- net.cxy 367-391: the loop over the answers.  The entry that answer `n` brings is known as `n`;
`freed` are the entries given back.  `none` when the loop has not ended. -/
def collect (ans : Nat → Answer) : Nat → Nat → Option (Nat × List Nat) → Option (Nat × List Nat) → List Nat →
    Option (Option (Nat × List Nat) × Option (Nat × List Nat) × List Nat)
  | 0, _, _, _, _ => none
  | fuel + 1, n, v4, v6, freed =>
    match ans n with
    | .again => collect ans fuel (n + 1) v4 v6 freed
    | .noMore => some (v4, v6, freed)
    | .failed => if v4.isSome && v6.isSome then some (v4, v6, freed) else collect ans fuel (n + 1) v4 v6 freed
    | .entry fam sa =>
      if v4 = none ∧ fam = afInet then
        if v6.isSome then some (some (n, sa), v6, freed) else collect ans fuel (n + 1) (some (n, sa)) v6 freed
      else if v6 = none ∧ fam = afInet6 then
        if v4.isSome then some (v4, some (n, sa), freed) else collect ans fuel (n + 1) v4 (some (n, sa)) freed
      else if v4.isSome && v6.isSome then some (v4, v6, freed ++ [n])
      else collect ans fuel (n + 1) v4 v6 (freed ++ [n])

/-- net.cxy 393-429: entries the mode does not want are given back, the chosen one is copied and given
back. -/
def takeAnswer (a : Addr) (port : Nat) (mode : Mode) (v4 v6 : Option (Nat × List Nat)) (freed : List Nat) :
    Addr × List Nat :=
  let (v4, v6, freed) :=
    match mode, v4, v6 with
    | .v4, v4, some (n, _) => (v4, none, freed ++ [n])
    | .v6, some (n, _), v6 => (none, v6, freed ++ [n])
    | .any, some e, some (n, _) => (some e, none, freed ++ [n])
    | _, v4, v6 => (v4, v6, freed)
  match v4, v6 with
  | some (n, sa), _ => (put16 (put a 0 (sa.take 16)) 2 (htons port), freed ++ [n])
  | none, some (n, sa) => (put16 (put a 0 (sa.take 28)) 2 (htons port), freed ++ [n])
  | none, none => (put16 a 0 afUnspec, freed)

/-- net.cxy 319-433 `getRemoteAddress` with the entries given back; `fuel` bounds the rounds of the
loop, which has no bound of its own. -/
def remoteAddress (L : Lib) (ans : Nat → Answer) (fuel : Nat) (a : Addr) (name : List Nat) (port : Nat) (mode : Mode) :
    Option (Addr × List Nat) :=
  let a := literal L a name port mode
  if isSet a then some (a, [])
  else (collect ans fuel 0 none none []).map fun (v4, v6, freed) => takeAnswer a port mode v4 v6 freed

end Verif.Net
