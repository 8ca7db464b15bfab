import Verif.Model.Http
/-
Model of what the server does with one connection: `Socket::getHTTPRequest` and `Socket::send` (`/repo/src/util/Socket.h`),
`Server::process`, `Server::parseHttpRequest`, `Server::createHttpResponse`, the JSON text of an error and `Server::serveFile`
(`/repo/src/engine/Server.cpp`), and the output of a string by the JSON library (`/repo/third_party/json/nlohmann/json.hpp`).

`Server::process` runs in a thread of `Server::runAcceptLoop` that catches nothing (Server.cpp:73-94), so an exception that leaves it ends
the server program; this is the outcome `throw` of `process`.

Simplifications: the text of an exception is without the file, the line and the function of the place where it was thrown; the numbers
of bytes sent fit into an `int`; parsing, planning, executing a query and writing its result is the parameter `Engine.exec`; logging is
left out. A character stands for one byte.
-/
namespace Verif.Server
open Verif.StringUtils Verif.Http

abbrev Str := List Char

/-- The result of a function that may throw an exception with a text. -/
inductive Run (α : Type) where
  | ok (a : α)
  | throw (what : Str)
  | ub
  | diverge
  deriving DecidableEq

namespace Run

@[simp] def bind (x : Run α) (f : α → Run β) : Run β :=
  match x with
  | ok a => f a
  | throw w => throw w
  | ub => ub
  | diverge => diverge

@[simp] def map (f : α → β) (x : Run α) : Run β :=
  match x with
  | ok a => ok (f a)
  | throw w => throw w
  | ub => ub
  | diverge => diverge

/-- An exception of the standard library, with its text. -/
@[simp] def lift (what : Str) (x : Outcome α) : Run α :=
  match x with
  | .ok a => ok a
  | .throw => throw what
  | .ub => ub
  | .diverge => diverge

end Run

/-- The table of the UTF-8 decoder, json.hpp:16300-16318. -/
def utf8d : List Nat :=
  List.replicate 128 0 ++
  List.replicate 16 1 ++ List.replicate 16 9 ++
  List.replicate 32 7 ++
  [8, 8] ++ List.replicate 30 2 ++
  [10, 3, 3, 3, 3, 3, 3, 3, 3, 3, 3, 3, 3, 4, 3, 3] ++
  [11, 6, 6, 6, 5, 8, 8, 8, 8, 8, 8, 8, 8, 8, 8, 8] ++
  [0, 1, 2, 3, 5, 8, 7, 1, 1, 1, 4, 6, 1, 1, 1, 1] ++
  [1, 1, 1, 1, 1, 1, 1, 1, 1, 1, 1, 1, 1, 1, 1, 1, 1, 0, 1, 1, 1, 1, 1, 0, 1, 0, 1, 1, 1, 1, 1, 1] ++
  [1, 2, 1, 1, 1, 1, 1, 2, 1, 2, 1, 1, 1, 1, 1, 1, 1, 1, 1, 1, 1, 1, 1, 2, 1, 1, 1, 1, 1, 1, 1, 1] ++
  [1, 2, 1, 1, 1, 1, 1, 1, 1, 2, 1, 1, 1, 1, 1, 1, 1, 1, 1, 1, 1, 1, 1, 3, 1, 3, 1, 1, 1, 1, 1, 1] ++
  [1, 3, 1, 1, 1, 1, 1, 3, 1, 3, 1, 1, 1, 1, 1, 1, 1, 3, 1, 1, 1, 1, 1, 1, 1, 1, 1, 1, 1, 1, 1, 1]

/-- `decode`, json.hpp:16298-16330: the next state and the code point read so far. State 0 accepts, state 1 rejects. The bits of
`byte & 0x3f` and of `codep << 6` are disjoint, so "or" is a sum. -/
def decode (state codep byte : Nat) : Nat × Nat :=
  let type := utf8d.getD byte 0
  let codep := if state ≠ 0 then byte % 64 + codep * 64 % 2 ^ 32 else (255 >>> type) &&& byte
  (utf8d.getD (256 + state * 16 + type) 0, codep)

/-- A lower-case hexadecimal digit, as `%x` writes it. -/
def hexLower (n : Nat) : Char := ['0', '1', '2', '3', '4', '5', '6', '7', '8', '9', 'a', 'b', 'c', 'd', 'e', 'f'].getD n '0'

/-- What is written for a code point that ends with byte `c`, json.hpp:15835-15912, with `ensure_ascii` false. -/
def escape (codep : Nat) (c : Char) : Str :=
  if codep = 0x08 then ['\\', 'b']
  else if codep = 0x09 then ['\\', 't']
  else if codep = 0x0A then ['\\', 'n']
  else if codep = 0x0C then ['\\', 'f']
  else if codep = 0x0D then ['\\', 'r']
  else if codep = 0x22 then ['\\', '"']
  else if codep = 0x5C then ['\\', '\\']
  else if codep ≤ 0x1F then
    ['\\', 'u', hexLower (codep / 4096 % 16), hexLower (codep / 256 % 16), hexLower (codep / 16 % 16), hexLower (codep % 16)]
  else [c]

/-- The text of the exception for a string that is not UTF-8, json.hpp:15939, 16031; without the position and the byte. -/
def notUtf8 : Str := "[json.exception.type_error.316] invalid UTF-8 byte".toList

/-- The loop of `dump_escaped`, json.hpp:15827-16034, with the error handler `strict`. The buffer is part of the output. -/
def dumpLoop (state codep : Nat) (out : Str) : Str → Run Str
  | [] => if state = 0 then .ok out else .throw notUtf8
  | c :: s =>
    let r := decode state codep c.toNat
    if r.1 = 0 then dumpLoop r.1 r.2 (out ++ escape r.2 c) s
    else if r.1 = 1 then .throw notUtf8
    else dumpLoop r.1 r.2 (out ++ [c]) s

/-- A string in the output of `dump`, json.hpp:15673-15679. -/
def dumpString (s : Str) : Run Str := (dumpLoop 0 0 [] s).map fun t => '"' :: (t ++ ['"'])

/-- A number in decimal notation. -/
def decimal (n : Nat) : Str := Nat.toDigits 10 n

/-- `Server::composeResponseJson` for an exception, Server.cpp:430-444, `j.dump(4)`. The members of an object are sorted by name; the
text of the exception ends at the first zero byte. -/
def errorJson (msecs : Nat) (query what : Str) : Run Str :=
  (dumpString (what.takeWhile (· != '\x00'))).bind fun w =>
  (dumpString query).bind fun q =>
  .ok ("{\n    \"exception\": ".toList ++ w ++ ",\n    \"query\": ".toList ++ q ++
    ",\n    \"resultsize\": 0,\n    \"status\": \"ERROR\",\n    \"time\": {\n        \"computeResult\": ".toList ++ decimal msecs ++
    ",\n        \"total\": ".toList ++ decimal msecs ++ "\n    }\n}".toList)

/-- `AD_THROW(BAD_REQUEST, details)`, Exception.h:19-25, and the text of the exception. -/
def badRequest (details : Str) : Str := "BAD REQUEST STRING (".toList ++ details ++ ")".toList

/-- The text of the exception of `std::string::substr`. -/
def outOfRange : Str := "basic_string::substr: __pos > this->size()".toList

/-- `getLowercaseUtf8`, StringUtils.h:244-270, where `lower` says what it does with UTF-8. For other bytes `mbrtowc` returns -1, the
assertion is not compiled in, and an uninitialized character is read. -/
def lowerUtf8 (lower : Str → Str) (s : Str) : Run Str :=
  match dumpLoop 0 0 [] s with
  | .ok _ => .ok (lower s)
  | _ => .ub

/-- One parameter behind position `index` whose value ends before `stop`, with the texts of the exceptions, Server.cpp:283-297 and
301-313. -/
def param (lower : Str → Str) (fuel : Nat) (noEq : Str) (dup : Str → Str) (request : Str) (params : Params) (index stop : Nat) :
    Run Params :=
  match findPos (· == '=') request (index + 1) with
  | none => .throw (badRequest noEq)
  | some posOfEq =>
    (Run.lift outOfRange (substr request (index + 1) (sub64 posOfEq (index + 1)))).bind fun name =>
    (lowerUtf8 lower name).bind fun name =>
    (Run.lift outOfRange (substr request (posOfEq + 1) (sub64 stop (posOfEq + 1)))).bind fun value =>
    (Run.lift outOfRange (decodeUrl fuel value)).bind fun v =>
    if params.any fun p => p.1 == name then .throw (badRequest (dup name)) else .ok (params ++ [(name, v)])

/-- The loop over all parameters but the last, Server.cpp:282-300. -/
def paramsLoop (lower : Str → Str) (fuel : Nat) (raw request : Str) : Nat → Params → Nat → Option Nat → Run (Params × Nat)
  | 0, _, _, _ => .diverge
  | _ + 1, params, index, none => .ok (params, index)
  | n + 1, params, index, some next =>
    (param lower fuel ("Parameter without \"=\" in HTTP Request.\n".toList ++ raw) (fun name => "Duplicate HTTP parameter: ".toList ++ name)
        request params index next).bind fun p =>
      paramsLoop lower fuel raw request n p next (findPos (· == '&') request (next + 1))

/-- `Server::parseHttpRequest`, Server.cpp:257-317, with the texts of the exceptions. -/
def parseHttpRequest (lower : Str → Str) (fuel : Nat) (raw : Str) : Run Params :=
  match find cGET raw 0, find cHTTP raw 0 with
  | some get, some http =>
    (Run.lift outOfRange (substr raw (get + 3) (sub64 http (get + 3)))).bind fun request =>
    match findPos (· == '?') request 0 with
    | none => .throw (badRequest ("Invalid request. At least one parameters is required for meaningful queries!\n".toList ++ raw))
    | some index =>
      (paramsLoop lower fuel raw request fuel [] index (findPos (· == '&') request (index + 1))).bind fun r =>
      param lower fuel ("Parameter without \"=\" in HTTP Request.".toList ++ raw) (fun _ => "Duplicate HTTP parameter.".toList)
        request r.1 r.2 (request.length - 1)
  | _, _ => .throw (badRequest ("Invalid request. Only supporting proper HTTP GET requests!\n".toList ++ raw))

/-- The three forms of a result, Server.cpp:222-238. -/
inductive Format where
  | csv | tsv | json
  deriving DecidableEq

/-- What happens to the cache, Server.cpp:165-173. -/
inductive Clear where
  | nothing | unpinned | all
  deriving DecidableEq

/-- The rest of the server. `exec` parses, plans and executes the query and writes the result in the format. -/
structure Engine where
  lower : Str → Str
  files : Str → Option Str
  stats : Run Str
  cacheStats : Run Str
  exec : Format → Params → Str → Run Str
  msecs : Nat

/-- `params[key]` in lower-case letters; a missing parameter is empty, Server.cpp:143, 154, 165, 169, 197-200, 222, 228. -/
def lowerValue (params : Params) (key : Str) : Str :=
  match params.find? fun p => p.1 == key with
  | none => []
  | some p => p.2.map toLower

/-- What the `try` block of `Server::process` leaves: the variable `query`, the command for the cache, and either the content of the
response with its type or an exception. -/
structure Attempt where
  query : Str
  clear : Clear
  result : Run (Str × Str)

def jsonType : Str := "application/json".toList
def csvType : Str := "text/csv\r\nContent-Disposition: attachment;filename=export.csv".toList
def tsvType : Str := "text/tab-separated-values\r\nContent-Disposition: attachment;filename=export.tsv".toList

/-- The choice of the format, Server.cpp:222-238. -/
def execute (E : Engine) (params : Params) (query : Str) : Run (Str × Str) :=
  if lowerValue params "action".toList = "csv_export".toList then (E.exec .csv params query).map fun r => (r, csvType)
  else if lowerValue params "action".toList = "tsv_export".toList then (E.exec .tsv params query).map fun r => (r, tsvType)
  else (E.exec .json params query).map fun r => (r, jsonType)

/-- The `try` block of `Server::process`, Server.cpp:140-241. -/
def attempt (E : Engine) (fuel : Nat) (request : Str) : Attempt :=
  match parseHttpRequest E.lower fuel request with
  | .throw w => ⟨[], .nothing, .throw w⟩
  | .ub => ⟨[], .nothing, .ub⟩
  | .diverge => ⟨[], .nothing, .diverge⟩
  | .ok params =>
    let cmd := lowerValue params "cmd".toList
    if cmd = "stats".toList then ⟨[], .nothing, E.stats.map fun s => (s, jsonType)⟩
    else if cmd = "cachestats".toList then ⟨[], .nothing, E.cacheStats.map fun s => (s, jsonType)⟩
    else
      let clear := if cmd = "clearcache".toList then .unpinned else if cmd = "clearcachecomplete".toList then .all else .nothing
      match createQuery params with
      | .ok query => ⟨query, clear, execute E params query⟩
      | .throw => ⟨[], clear, .throw (badRequest "Expected at least one non-empty attribute \"query\".".toList)⟩
      | .ub => ⟨[], clear, .ub⟩
      | .diverge => ⟨[], clear, .diverge⟩

/-- The `catch` block of `Server::process`, Server.cpp:241-244: the content of the response and its type. -/
def caught (E : Engine) (a : Attempt) : Run (Str × Str) :=
  match a.result with
  | .throw w => (errorJson E.msecs a.query w).map fun j => (j, [])
  | r => r

/-- The content of the response and its type, Server.cpp:140-244. -/
def answer (E : Engine) (fuel : Nat) (request : Str) : Run (Str × Str) := caught E (attempt E fuel request)

/-- `Server::createHttpResponse`, Server.cpp:332-346. -/
def createHttpResponse (content contentType : Str) : Str :=
  "HTTP/1.1 200 OK\r\nContent-Length: ".toList ++ decimal content.length ++ "\r\nConnection: close\r\nContent-Type: ".toList ++
    contentType ++ "; charset=utf-8\r\nAccess-Control-Allow-Origin: *\r\n\r\n".toList ++ content

/-- `Server::create404HttpResponse`, Server.cpp:349-356. -/
def response404 : Str := "HTTP/1.1 404 Not Found\r\nContent-Length: 0\r\nConnection: close\r\n\r\n".toList

/-- `Server::create400HttpResponse`, Server.cpp:359-366. -/
def response400 : Str := "HTTP/1.1 400 Bad Request\r\nContent-Length: 0\r\nConnection: close\r\n\r\n".toList

/-- `Server::serveFile`, Server.cpp:447-485. -/
def serveFile (files : Str → Option Str) (name : Str) : Str :=
  let status := match files name with
    | none => "HTTP/1.0 404 NOT FOUND".toList
    | some _ => "HTTP/1.0 200 OK".toList
  let content := match files name with
    | none => "404 NOT FOUND".toList
    | some c => c
  let type := match files name with
    | none => "text/plain".toList
    | some _ =>
      if ".html".toList.isSuffixOf name then "text/html".toList
      else if ".css".toList.isSuffixOf name then "text/css".toList
      else if ".js".toList.isSuffixOf name then "application/javascript".toList
      else "text/plain".toList
  status ++ "\r\nContent-Length: ".toList ++ decimal content.length ++ "\r\nContent-Type: ".toList ++ type ++
    "\r\nAccess-Control-Allow-Origin: *\r\nConnection: close\r\n\r\n".toList ++ content

/-- The files that are served, Server.cpp:129. -/
def whiteList : List Str := ["index.html".toList, "style.css".toList, "script.js".toList]

/-- The variable `upper`, Server.cpp:112-118. -/
def upper (request : Str) (get http : Nat) : Nat :=
  match findPos (· == '?') request get with
  | some quest => if quest < http then quest + 1 else http
  | none => http

/-- The variable `file`, Server.cpp:120. -/
def requested (request : Str) (get http : Nat) : Run Str :=
  Run.lift outOfRange (substr request (get + 5) (sub64 (sub64 (upper request get http) (get + 5)) 1))

/-- The end of `Server::process` for the variable `file`, Server.cpp:120-247; a request for no file and no query is for `index.html`. The
character that is read one behind the end of the request is zero. -/
def respond (E : Engine) (fuel : Nat) (request : Str) (get : Nat) (file : Str) : Run Str :=
  if file = [] ∧ request[get + 5]? ≠ some '?' then .ok (serveFile E.files "index.html".toList)
  else if file = [] then (answer E fuel request).map fun r => createHttpResponse r.1 r.2
  else if file ∈ whiteList then .ok (serveFile E.files file)
  else .ok response404

/-- `Server::process`, Server.cpp:97-254, from the request line to the bytes of the response. -/
def process (E : Engine) (fuel : Nat) (request : Str) : Run Str :=
  match find cGET request 0, find cHTTP request 0 with
  | some get, some http =>
    (requested request get http).bind fun file => respond E fuel request get file
  | _, _ => .ok response400

/-- What `recv` returns: some bytes (none if the connection was closed), a request to try again, or an error. -/
inductive Recv where
  | bytes (b : Str)
  | again
  | fail

/-- The loop of `Socket::getHTTPRequest`, Socket.h:150-196; the state is `data`, `req`. When nothing more arrives, `recv` waits forever. -/
def getLoop : List Recv → Str → Str → Run (Str × Str)
  | [], _, _ => .diverge
  | .fail :: _, _, req => .ok (req, [])
  | .again :: rs, data, req => getLoop rs data req
  | .bytes b :: rs, data, req =>
    if b = [] then .ok (req, [])
    else
      let data := data ++ b
      let pos := if req = [] then find ['\r', '\n'] data 0 else none
      let req := match pos with
        | some i => data.take i
        | none => req
      let data := match pos with
        | some i => data.drop i
        | none => data
      if req ≠ [] then
        if find cHTTP req 0 = none then .ok (req, [])
        else if find ['\r', '\n', '\r', '\n'] data 0 = none then getLoop rs data req
        else .ok (req, data)
      else getLoop rs data req

/-- `Socket::getHTTPRequest`, Socket.h:150-196: the request line and the headers. -/
def getHTTPRequest (rs : List Recv) : Run (Str × Str) := getLoop rs [] []

/-- What the `send` of the system returns: the number of bytes sent, a request to try again, or another error. -/
inductive Sent where
  | bytes (n : Nat)
  | again
  | fail

/-- `Socket::send`, Socket.h:126-143: the bytes that were sent. -/
def send : List Sent → Str → Nat → Run Str
  | [], _, _ => .diverge
  | .bytes n :: rs, data, _ => if n = data.length then .ok data else (send rs (data.drop n) 5).map fun t => data.take n ++ t
  | .again :: rs, data, retry => if retry > 0 then send rs data (retry - 1) else .ok []
  | .fail :: _, _, _ => .ok []

/-- One turn of `Server::runAcceptLoop`, Server.cpp:73-94: the response to what arrives on the connection. -/
def connection (E : Engine) (fuel : Nat) (rs : List Recv) : Run Str := (getHTTPRequest rs).bind fun r => process E fuel r.1

end Verif.Server
