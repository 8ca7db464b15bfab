import Verif.Model.StringUtils
/-
Model of `Server::parseHttpRequest` and `Server::createQueryFromHttpParams` (`/repo/src/engine/Server.cpp`).

The function that makes parameter names lower-case (`getLowercaseUtf8`) is a parameter. The map from parameters to values is the list
of its entries in the order of insertion; names occur at most once.
-/
namespace Verif.Http
open Verif.StringUtils Outcome

abbrev Params := List (List Char × List Char)

/-- The constants of the request line. -/
def cGET : List Char := ['G', 'E', 'T']
def cHTTP : List Char := ['H', 'T', 'T', 'P']
def cQuery : List Char := ['q', 'u', 'e', 'r', 'y']

/-- One parameter behind position `index` whose value ends before `stop`, Server.cpp:284-297 and 301-313. -/
def param (lower : List Char → List Char) (fuel : Nat) (request : List Char) (params : Params) (index stop : Nat) : Outcome Params :=
  match findPos (· == '=') request (index + 1) with
  | none => .throw
  | some posOfEq =>
    (substr request (index + 1) (sub64 posOfEq (index + 1))).bind fun name =>
    (substr request (posOfEq + 1) (sub64 stop (posOfEq + 1))).bind fun value =>
    (decodeUrl fuel value).bind fun v =>
    if params.any fun p => p.1 == lower name then .throw else .ok (params ++ [(lower name, v)])

/-- The loop over all parameters but the last, Server.cpp:282-300; the state is `params`, `index`, `next`. -/
def paramsBody (lower : List Char → List Char) (fuel : Nat) (request : List Char) (s : Params × Nat × Option Nat) :
    Outcome ((Params × Nat × Option Nat) ⊕ (Params × Nat)) :=
  match s.2.2 with
  | none => .ok (.inr (s.1, s.2.1))
  | some next => (param lower fuel request s.1 s.2.1 next).map fun p => .inl (p, next, findPos (· == '&') request (next + 1))

/-- `Server::parseHttpRequest`, Server.cpp:257-317. -/
def parseHttpRequest (lower : List Char → List Char) (fuel : Nat) (raw : List Char) : Outcome Params :=
  match find cGET raw 0, find cHTTP raw 0 with
  | some get, some http =>
    (substr raw (get + 3) (sub64 http (get + 3))).bind fun request =>
    match findPos (· == '?') request 0 with
    | none => .throw
    | some index =>
      (loop fuel (paramsBody lower fuel request) ([], index, findPos (· == '&') request (index + 1))).bind fun r =>
      param lower fuel request r.1 r.2 (request.length - 1)
  | _, _ => .throw

/-- `Server::createQueryFromHttpParams`, Server.cpp:320-330. -/
def createQuery (params : Params) : Outcome (List Char) :=
  match params.find? fun p => p.1 == cQuery with
  | none => .throw
  | some p => if p.2 = [] then .throw else .ok p.2

end Verif.Http
