import Verif.Std.Http.Model
import Verif.Std.Trie.Model
import Verif.Common.Out
/-!
# Model of request methods and routing: `src/cxy/stdlib/http.cxy` lines 32-48, 93-125, 214-235, 609-792 and 858-878

Texts have no NUL byte, and a NUL byte follows them in memory (string literals, and `String`, builtins.cxy 828-837), so
that reading at the end of the list gives 0.  A handler is a number.  The trie of routes is that of `Verif.Std.Trie`.
-/
namespace Verif.Http

/-! ## Methods -/

/-- http.cxy 32-48 `Method` -/
inductive Method where
  | delete | get | head | post | put | connect | options | trace | unknown
  deriving DecidableEq, Repr

/-- The value of the enumeration constant. -/
def Method.code : Method → Nat
  | .delete => 0 | .get => 1 | .head => 2 | .post => 3 | .put => 4 | .connect => 5 | .options => 6 | .trace => 7 | .unknown => 8

/-- http.cxy 214-235 `methodName` -/
def methodName : Method → List Nat
  | .delete => str "DELETE"
  | .get => str "GET"
  | .head => str "HEAD"
  | .post => str "POST"
  | .put => str "PUT"
  | .connect => str "CONNECT"
  | .options => str "OPTIONS"
  | .trace => str "TRACE"
  | .unknown => str "Invalid"

/-- `p.[i]` in a text followed by a NUL byte; further reads are undefined. -/
def rd (d : List Nat) (i : Nat) : Out Nat :=
  match d[i]? with
  | some c => .ok c
  | none => if i = d.length then .ok 0 else .ub

/-- C `strncasecmp(a, b, n) == 0` for texts of `n` bytes: it stops at a NUL byte. -/
def caseEq : List Nat → List Nat → Bool
  | a :: as, b :: bs => if upper a ≠ upper b then false else if a = 0 then true else caseEq as bs
  | _, _ => true

/-- builtins.cxy 1274-1278 `EqualsCase` on views -/
def equalsCase (a b : List Nat) : Bool := decide (a.length = b.length) && caseEq a b

/-- http.cxy 100-115: the method whose name may begin the text. -/
def maybeMethod (d : List Nat) : Out (Option (Method × List Nat)) :=
  (rd d 0).bind fun c =>
    let x := upper c
    if x = 68 then .ok (some (.delete, str "DELETE"))
    else if x = 71 then .ok (some (.get, str "GET"))
    else if x = 72 then .ok (some (.head, str "HEAD"))
    else if x = 80 then (rd d 1).bind fun y => if upper y = 79 then .ok (some (.post, str "POST")) else .ok (some (.put, str "PUT"))
    else if x = 67 then .ok (some (.connect, str "CONNECT"))
    else if x = 79 then .ok (some (.options, str "OPTIONS"))
    else if x = 84 then .ok (some (.trace, str "TRACE"))
    else .ok none

/-- http.cxy 96-125 `methodFromString`: the method and the length of its name. -/
def methodFromString (d : List Nat) : Out (Method × Nat) :=
  (maybeMethod d).bind fun
    | none => .ok (.unknown, 0)
    | some (m, name) =>
      if d.length < name.length then .ok (.unknown, 0)
      else if equalsCase (d.take name.length) name then .ok (m, name.length) else .ok (.unknown, 0)

/-! ## Declaring routes -/

/-- http.cxy 609-614 `Route` -/
structure Route where
  handler : Nat
  params : List (List Nat)
  methods : Nat
  isStatic : Bool
  deriving DecidableEq

/-- http.cxy 757-770 `parseParams`, on the text from `idx` on; the bound is on the number of parameters. -/
def parseParams : Nat → List Nat → Out (List (List Nat))
  | 0, _ => .diverge
  | n + 1, d =>
    match d with
    | 47 :: 123 :: r =>
      match r.dropWhile (· ≠ 125) with
      | 125 :: r' => (parseParams n r').bind fun ps => .ok (r.takeWhile (· ≠ 125) :: ps)
      | _ => .abort
    | 47 :: _ => .abort
    | _ => .ok []

/-- http.cxy 663-670: where the parameters begin. -/
def prefixEnd (path : List Nat) (idx : Nat) : Nat :=
  let i := idx + ((path.drop idx).takeWhile (· ≠ 123)).length
  if path[i]? = some 123 then i - 1 else i

/-- http.cxy 662-677: the private `add`; the route is stored under the whole text up to its parameters. -/
def addRoute (routes : Trie.Heap Route) (methods : Nat) (path : List Nat) (idx : Nat) (handler : Nat) : Out (Trie.Heap Route) :=
  (rd path idx).bind fun c =>
    if c ≠ 47 then .abort
    else
      (parseParams (path.length + 1) (path.drop (prefixEnd path idx))).bind fun params =>
        match Trie.add routes (path.take (prefixEnd path idx)) ⟨handler, params, methods, false⟩ with
        | some h => .ok h
        | none => .abort

/-- http.cxy 687-688: the spaces after the method. -/
def skipSpaces (path : List Nat) (idx : Nat) : Nat := idx + ((path.drop idx).takeWhile (· = 32)).length

/-- http.cxy 679-692 `Router.add` -/
def Router.add (routes : Trie.Heap Route) (path : List Nat) (handler : Nat) : Out (Trie.Heap Route) :=
  (rd path 0).bind fun c =>
    if c ≠ 47 then
      (methodFromString path).bind fun (m, n) =>
        if m = .unknown then .abort else addRoute routes (1 <<< m.code) path (skipSpaces path n) handler
    else addRoute routes (1 <<< Method.get.code) path 0 handler

/-- A program that declares routes, each with its text, in order; the handler is the position. -/
def Router.addAll (routes : Trie.Heap Route) (n : Nat) : List (List Nat) → Out (Trie.Heap Route)
  | [] => .ok routes
  | path :: rest => (Router.add routes path n).bind fun h => Router.addAll h (n + 1) rest

/-! ## Finding routes -/

/-- http.cxy 772-799 `parseRouteArgs`: the parameters with their values, or nothing for a bad request. -/
def parseRouteArgs : List (List Nat) → List Nat → Option (List (List Nat × List Nat))
  | [], p => match p with | [] => some [] | c :: _ => if c = 63 then some [] else none
  | name :: names, p =>
    match p with
    | 47 :: r =>
      (parseRouteArgs names (r.dropWhile fun c => c ≠ 47 && c ≠ 63)).map
        ((name, r.takeWhile fun c => c ≠ 47 && c ≠ 63) :: ·)
    | _ => none

/-- http.cxy 648 `isMethodSupported` -/
def Route.supports (r : Route) (m : Method) : Bool := decide (r.methods &&& (1 <<< m.code) ≠ 0)

/-- What becomes of a request: the handler with its parameters, or a status. -/
inductive Dispatch where
  | call (handler : Nat) (params : List (List Nat × List Nat))
  | error (status : Nat)
  deriving DecidableEq, Repr

/-- http.cxy 722-755 `Router.find` -/
def Router.find (routes : Trie.Heap Route) (m : Method) (path : List Nat) : Dispatch :=
  match Trie.findLoop routes 0 0 none path with
  | none => .error 404
  | some (consumed, r) =>
    if r.supports m then
      if r.isStatic then .call r.handler []
      else match parseRouteArgs r.params (path.drop consumed) with
        | some ps => .call r.handler ps
        | none => .error 400
    else .error 404

/-- http.cxy 858-878 `handleConnection`: when no route is found, the status is set to 404 in any case. -/
def dispatch (routes : Trie.Heap Route) (m : Method) (path : List Nat) : Dispatch :=
  match Router.find routes m path with
  | .call h ps => .call h ps
  | .error _ => .error 404

end Verif.Http
