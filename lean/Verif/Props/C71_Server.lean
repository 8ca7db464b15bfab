import Verif.Lemmas.Server
/-
C71: a request that arrives at the server gets the answer to its query, and no request stops the server.

`fuel` bounds the iterations of loops; the theorems hold for every sufficiently large number. The outcome `throw` of `process` is an
exception that nobody catches: the server program ends.
-/
namespace Verif.Server
open ServerSpec StringUtils
open Http (Params cGET cHTTP)

/-! ### Bytes in, bytes out -/

/-- A string can be written into a JSON text exactly if it is UTF-8; then a client reads the same string. -/
theorem C71_dump (s : Str) (hb : ∀ c ∈ s, c.toNat < 256) :
    (∃ t, dumpString s = .ok t ∧ ∀ r, readString (t ++ r) = some (s, r)) ↔ Utf8 s := by
  constructor
  · rintro ⟨t, h, _⟩
    exact (dumpString_utf8 hb).mp ⟨t, h⟩
  · exact dumpString_read

example : dumpString "a\"\n\x01\xc3\xa4".toList = .ok "\"a\\\"\\n\\u0001\xc3\xa4\"".toList ∧
    dumpString "a\xff".toList = .throw notUtf8 := by decide +kernel

/-- A client reads the content of a response from it, with status 200. -/
theorem C71_response (content type : Str) (ht : '\r' ∉ type) (hs : type.head? ≠ some ' ') :
    readResponse (createHttpResponse content type) = some ⟨200, [("Content-Length".toList, Nat.toDigits 10 content.length),
      ("Connection".toList, "close".toList), ("Content-Type".toList, type ++ "; charset=utf-8".toList),
      ("Access-Control-Allow-Origin".toList, "*".toList)], content⟩ := by
  have h := readResponse_eq "HTTP/1.1 200 OK".toList [("Content-Length".toList, decimal content.length),
      ("Connection".toList, "close".toList), ("Content-Type".toList, type ++ "; charset=utf-8".toList),
      ("Access-Control-Allow-Origin".toList, "*".toList)] content 200 (by decide) (by decide) (by
        intro p hp
        simp only [List.mem_cons, List.not_mem_nil, or_false] at hp
        have hd : ∀ c ∈ decimal content.length, c ≠ '\r' ∧ c ≠ ' ' := by
          intro c hc
          have := decimal_digits _ c hc
          constructor <;> (rintro rfl; exact absurd this (by decide))
        rcases hp with rfl | rfl | rfl | rfl
        · refine ⟨show ':' ∉ "Content-Length".toList by decide, show '\r' ∉ "Content-Length".toList by decide, fun hm => (hd _ hm).1 rfl, ?_⟩
          intro hh
          exact (hd _ (List.mem_of_mem_head? hh)).2 rfl
        · decide
        · refine ⟨show ':' ∉ "Content-Type".toList by decide, show '\r' ∉ "Content-Type".toList by decide, ?_, ?_⟩
          · simp only [List.mem_append]
            rintro (h | h)
            · exact ht h
            · revert h; decide
          · cases type with
            | nil => decide
            | cons c t => simpa using hs
        · decide) rfl
  rw [← show decimal content.length = Nat.toDigits 10 content.length from rfl, ← h]
  congr 1
  unfold createHttpResponse
  generalize decimal content.length = d
  simp only [List.map_cons, List.map_nil, List.flatMap_cons, List.flatMap_nil, List.append_nil]
  rw [show "HTTP/1.1 200 OK\r\nContent-Length: ".toList =
      "HTTP/1.1 200 OK".toList ++ ['\r', '\n'] ++ ("Content-Length".toList ++ [':', ' ']) by decide,
    show "\r\nConnection: close\r\nContent-Type: ".toList =
      ['\r', '\n'] ++ ("Connection".toList ++ (':' :: ' ' :: "close".toList) ++ ['\r', '\n'] ++ ("Content-Type".toList ++ [':', ' '])) by decide,
    show "; charset=utf-8\r\nAccess-Control-Allow-Origin: *\r\n\r\n".toList =
      "; charset=utf-8".toList ++ ['\r', '\n'] ++ ("Access-Control-Allow-Origin".toList ++ (':' :: ' ' :: "*".toList) ++ ['\r', '\n']) ++
        ['\r', '\n'] by decide]
  simp only [List.append_assoc, List.cons_append, List.nil_append]

example : '\r' ∉ jsonType ∧ jsonType.head? ≠ some ' ' ∧ '\r' ∉ ([] : Str) := by decide

/-- The request line does not depend on how its bytes arrive. -/
theorem C71_request_line (rs : List Recv) (line rest : Str) (ho : Open rs) (hr : received rs = line ++ "\r\n".toList ++ rest)
    (hline : '\r' ∉ line) (hne : line ≠ []) (hend : "\r\n\r\n".toList <:+: "\r\n".toList ++ rest) :
    ∃ h, getHTTPRequest rs = .ok (line, h) :=
  get_line hline hne hend rs [] ho (by simp) (by rw [List.nil_append, hr, List.append_assoc]; rfl)

/-- A request that arrives in four pieces. -/
example : let rs : List Recv := [.bytes "GET / HT".toList, .again, .bytes "TP/1.1\r".toList, .bytes "\nHost: a\r\n\r".toList, .bytes "\n".toList]
    received rs = "GET / HTTP/1.1".toList ++ "\r\n".toList ++ "Host: a\r\n\r\n".toList ∧
    getHTTPRequest rs = .ok ("GET / HTTP/1.1".toList, "\r\nHost: a\r\n\r\n".toList) := by decide +kernel

/-- A connection that is closed before the end of the first line is answered with status 400. -/
theorem C71_closed (E : Engine) (fuel : Nat) (rs more : List Recv) (ho : Open rs) (h : ¬ "\r\n".toList <:+: received rs) :
    ∃ b, connection E fuel (rs ++ .bytes [] :: more) = .ok b ∧ (readResponse b).map Response.status = some 400 := by
  refine ⟨response400, ?_, by decide +kernel⟩
  rw [connection, getHTTPRequest, get_closed rs more [] ho (by rw [List.nil_append]; exact h)]
  rfl

/-- An empty line before the request line, which a server should skip: the client gets no answer while it waits for one. -/
theorem C71_blank_violated (E : Engine) (fuel : Nat) (rs : List Recv) (rest : Str) (ho : Open rs) (hr : received rs = "\r\n".toList ++ rest) :
    connection E fuel rs = .diverge := by
  rw [connection, getHTTPRequest, get_blank rs [] ho (.inl rfl) ⟨rest, by rw [List.nil_append, hr]; rfl⟩]
  rfl

/-- What is sent is a beginning of the response. -/
theorem C71_send_prefix : ∀ (rs : List Sent) (data : Str) (retry : Nat) (t : Str), send rs data retry = .ok t → t <+: data := by
  intro rs
  induction rs with
  | nil => intro data retry t h; cases h
  | cons r rs ih =>
    intro data retry t h
    cases r with
    | bytes n =>
      rw [send] at h
      by_cases hn : n = data.length
      · rw [if_pos hn] at h; cases h; exact List.prefix_rfl
      · rw [if_neg hn] at h
        cases hs : send rs (data.drop n) 5 with
        | ok u =>
          rw [hs] at h
          cases h
          have h1 := ih _ _ _ hs
          conv => rhs; rw [← List.take_append_drop n data]
          exact (List.prefix_append_right_inj _).mpr h1
        | throw w => rw [hs] at h; cases h
        | ub => rw [hs] at h; cases h
        | diverge => rw [hs] at h; cases h
    | again =>
      rw [send] at h
      by_cases hr : retry > 0
      · rw [if_pos hr] at h; exact ih _ _ _ h
      · rw [if_neg hr] at h; cases h; exact List.nil_prefix
    | fail => cases h; exact List.nil_prefix

/-- Everything is sent if the system takes some bytes at a time, with at most five refusals before each time. -/
theorem C71_send : ∀ (steps : List (Nat × Nat)) (data : Str), steps ≠ [] → (∀ p ∈ steps, p.1 ≤ 5 ∧ 0 < p.2) →
    (steps.map Prod.snd).sum = data.length → send (steps.flatMap fun p => List.replicate p.1 .again ++ [.bytes p.2]) data 5 = .ok data := by
  have skip : ∀ (k retry : Nat) (rs : List Sent) (data : Str), k ≤ retry → send (List.replicate k .again ++ rs) data retry = send rs data (retry - k) := by
    intro k
    induction k with
    | zero => intro retry rs data _; rfl
    | succ k ih =>
      intro retry rs data h
      rw [List.replicate_succ, List.cons_append, send, if_pos (by omega), ih _ _ _ (by omega), show retry - 1 - k = retry - (k + 1) by omega]
  intro steps
  induction steps with
  | nil => intro _ h; exact absurd rfl h
  | cons p steps ih =>
    intro data _ hp hs
    simp only [List.map_cons, List.sum_cons] at hs
    have h1 := hp p (List.mem_cons_self ..)
    rw [List.flatMap_cons, List.append_assoc, skip _ _ _ _ h1.1]
    simp only [List.cons_append, List.nil_append]
    rw [send]
    by_cases hst : steps = []
    · subst hst
      simp only [List.map_nil, List.sum_nil] at hs
      rw [if_pos (by omega)]
    · have hpos : 0 < (steps.map Prod.snd).sum := by
        cases steps with
        | nil => exact absurd rfl hst
        | cons q l =>
          have := (hp q (by simp)).2
          simp only [List.map_cons, List.sum_cons]; omega
      rw [if_neg (by omega), ih _ hst (fun q hq => hp q (List.mem_cons_of_mem _ hq)) (by rw [List.length_drop]; omega)]
      simp only [Run.map, List.take_append_drop]

example : send [.again, .bytes 3, .again, .again, .bytes 2] "hello".toList 5 = .ok "hello".toList := by decide

/-! ### Which answer -/

theorem serveFile_read (files : Str → Option Str) (name : Str) (hn : name ∈ whiteList) : ∃ r, readResponse (serveFile files name) = some r ∧
    (∀ c, files name = some c → r.status = 200 ∧ r.body = c) ∧ (files name = none → r.status = 404) := by
  have main : ∀ (first type content : Str) (status : Nat), '\r' ∉ first ∧ first ≠ [] →
      readNat (((first.dropWhile (· != ' ')).drop 1).takeWhile (· != ' ')) = some status → '\r' ∉ type ∧ type.head? ≠ some ' ' →
      readResponse (first ++ "\r\nContent-Length: ".toList ++ decimal content.length ++ "\r\nContent-Type: ".toList ++ type ++
        "\r\nAccess-Control-Allow-Origin: *\r\nConnection: close\r\n\r\n".toList ++ content) =
      some ⟨status, [("Content-Length".toList, decimal content.length), ("Content-Type".toList, type),
        ("Access-Control-Allow-Origin".toList, "*".toList), ("Connection".toList, "close".toList)], content⟩ := by
    intro first type content status h1 h2 h3
    have h := readResponse_eq first [("Content-Length".toList, decimal content.length), ("Content-Type".toList, type),
        ("Access-Control-Allow-Origin".toList, "*".toList), ("Connection".toList, "close".toList)] content status h1 h2 (by
        intro p hp
        simp only [List.mem_cons, List.not_mem_nil, or_false] at hp
        have hd : ∀ c ∈ decimal content.length, c ≠ '\r' ∧ c ≠ ' ' := by
          intro c hc
          have := decimal_digits _ c hc
          constructor <;> (rintro rfl; exact absurd this (by decide))
        rcases hp with rfl | rfl | rfl | rfl
        · refine ⟨show ':' ∉ "Content-Length".toList by decide, show '\r' ∉ "Content-Length".toList by decide, fun hm => (hd _ hm).1 rfl, ?_⟩
          intro hh
          exact (hd _ (List.mem_of_mem_head? hh)).2 rfl
        · exact ⟨show ':' ∉ "Content-Type".toList by decide, show '\r' ∉ "Content-Type".toList by decide, h3.1, h3.2⟩
        · decide
        · decide) rfl
    rw [← h]
    congr 1
    generalize decimal content.length = d
    simp only [List.map_cons, List.map_nil, List.flatMap_cons, List.flatMap_nil, List.append_nil]
    rw [show "\r\nContent-Length: ".toList = ['\r', '\n'] ++ ("Content-Length".toList ++ [':', ' ']) by decide,
      show "\r\nContent-Type: ".toList = ['\r', '\n'] ++ ("Content-Type".toList ++ [':', ' ']) by decide,
      show "\r\nAccess-Control-Allow-Origin: *\r\nConnection: close\r\n\r\n".toList = ['\r', '\n'] ++
        ("Access-Control-Allow-Origin".toList ++ (':' :: ' ' :: "*".toList) ++ ['\r', '\n'] ++
        ("Connection".toList ++ (':' :: ' ' :: "close".toList) ++ ['\r', '\n'])) ++ ['\r', '\n'] by decide]
    simp only [List.append_assoc, List.cons_append, List.nil_append]
  cases hf : files name with
  | none =>
    unfold serveFile
    rw [hf]
    simp only
    exact ⟨_, main "HTTP/1.0 404 NOT FOUND".toList "text/plain".toList "404 NOT FOUND".toList 404 (by decide) (by decide) (by decide),
      by simp, fun _ => rfl⟩
  | some c =>
    have this : ∀ n ∈ whiteList, '\r' ∉ (if ".html".toList.isSuffixOf n then "text/html".toList
          else if ".css".toList.isSuffixOf n then "text/css".toList
          else if ".js".toList.isSuffixOf n then "application/javascript".toList
          else "text/plain".toList) ∧ (if ".html".toList.isSuffixOf n then "text/html".toList
          else if ".css".toList.isSuffixOf n then "text/css".toList
          else if ".js".toList.isSuffixOf n then "application/javascript".toList
          else "text/plain".toList).head? ≠ some ' ' := by
      decide
    unfold serveFile
    rw [hf]
    simp only
    refine ⟨_, main "HTTP/1.0 200 OK".toList _ c 200 (by decide) (by decide) (this name hn), ?_, by simp⟩
    intro d hd
    cases hd
    exact ⟨rfl, rfl⟩

/-- A request for a file, with or without parameters behind the path: the three files of the user interface are delivered if they are
there, `index.html` also for the empty path; everything else is not found. -/
theorem C71_file (E : Engine) (fuel : Nat) (path tail : Str) (hq : '?' ∉ path) (hh : ¬ "HTTP".toList <:+: "GET /".toList ++ path)
    (hsize : ("GET /".toList ++ path).length + 1 < 2 ^ 64) :
    ∃ b r, process E fuel ("GET /".toList ++ path ++ ' ' :: ("HTTP".toList ++ tail)) = .ok b ∧ readResponse b = some r ∧
      ∀ name, name = (if path = [] then "index.html".toList else path) →
        (∀ c, name ∈ ["index.html".toList, "style.css".toList, "script.js".toList] → E.files name = some c → r.status = 200 ∧ r.body = c) ∧
        ((name ∉ ["index.html".toList, "style.css".toList, "script.js".toList] ∨ E.files name = none) → r.status = 404) := by
  have h := process_path E fuel path tail hq hh hsize
  have hc : "HTTP".toList = cHTTP := by decide
  rw [hc]
  by_cases hp : path = []
  · rw [if_pos hp] at h
    rw [h]
    obtain ⟨r, h1, h2, h3⟩ := serveFile_read E.files "index.html".toList (by decide)
    refine ⟨_, r, rfl, h1, ?_⟩
    rintro name rfl
    rw [if_pos hp]
    refine ⟨fun c _ hc => h2 c hc, ?_⟩
    rintro (h | h)
    · exact absurd (by decide) h
    · exact h3 h
  · rw [if_neg hp] at h
    by_cases hw : path ∈ whiteList
    · rw [if_pos hw] at h
      rw [h]
      obtain ⟨r, h1, h2, h3⟩ := serveFile_read E.files path hw
      refine ⟨_, r, rfl, h1, ?_⟩
      rintro name rfl
      rw [if_neg hp]
      refine ⟨fun c _ hc => h2 c hc, ?_⟩
      rintro (h | h)
      · exact absurd hw h
      · exact h3 h
    · rw [if_neg hw] at h
      rw [h]
      refine ⟨_, ⟨404, [("Content-Length".toList, "0".toList), ("Connection".toList, "close".toList)], []⟩, rfl, by decide +kernel, ?_⟩
      rintro name rfl
      rw [if_neg hp]
      exact ⟨fun c hn => absurd hn hw, fun _ => rfl⟩

example : '?' ∉ "style.css".toList ∧ ¬ "HTTP".toList <:+: "GET /".toList ++ "style.css".toList := by decide +kernel

/-- Whatever the request is, no other files are looked at. -/
theorem C71_confined (E E' : Engine) (fuel : Nat) (request : Str) (hl : E.lower = E'.lower) (hs : E.stats = E'.stats)
    (hc : E.cacheStats = E'.cacheStats) (he : E.exec = E'.exec) (hm : E.msecs = E'.msecs)
    (hf : ∀ name ∈ ["index.html".toList, "style.css".toList, "script.js".toList], E.files name = E'.files name) :
    process E fuel request = process E' fuel request := by
  have hserve : ∀ name ∈ whiteList, serveFile E.files name = serveFile E'.files name := by
    intro name hn
    unfold serveFile
    rw [hf name hn]
  have ha : answer E fuel request = answer E' fuel request := by
    have h1 : attempt E fuel request = attempt E' fuel request := by
      unfold attempt execute
      rw [hl, hs, hc, he]
    unfold answer caught
    rw [h1, hm]
  unfold process
  cases find cGET request 0 with
  | none => rfl
  | some get =>
    cases find cHTTP request 0 with
    | none => rfl
    | some http =>
      simp only
      congr 1
      funext file
      unfold respond
      rw [ha, hserve _ (by decide)]
      by_cases h1 : file = [] ∧ request[get + 5]? ≠ some '?'
      · rw [if_pos h1, if_pos h1]
      · rw [if_neg h1, if_neg h1]
        by_cases h2 : file = []
        · rw [if_pos h2, if_pos h2]
        · rw [if_neg h2, if_neg h2]
          by_cases h3 : file ∈ whiteList
          · rw [if_pos h3, if_pos h3, hserve _ h3]
          · rw [if_neg h3, if_neg h3]

/-- A request line without `GET` is answered with status 400. -/
theorem C71_method (E : Engine) (fuel : Nat) (request : Str) (h : ¬ "GET".toList <:+: request ∨ ¬ "HTTP".toList <:+: request) :
    ∃ b, process E fuel request = .ok b ∧ (readResponse b).map Response.status = some 400 := by
  refine ⟨response400, ?_, by decide +kernel⟩
  unfold process
  rcases h with h | h
  · rw [find_infix.mpr (show ¬ cGET <:+: request from h)]
  · rw [find_infix.mpr (show ¬ cHTTP <:+: request from h)]
    cases find cGET request 0 <;> rfl

/-! ### Queries -/

/-- A request line: the path `/` and parameters. -/
def queryLine (ps : List Http.Param) (tail : Str) : Str :=
  "GET /".toList ++ ('?' :: List.intercalate ['&'] (ps.map fun p => p.name ++ '=' :: p.encoded)) ++ ' ' :: ("HTTP".toList ++ tail)

/-- The parameters that a request asks with are well-formed, differ, and do not contain the letters `HTTP`; all characters are ASCII. -/
structure Good (lower : Str → Str) (fuel : Nat) (ps : List Http.Param) (tail : Str) : Prop where
  some : ps ≠ []
  wf : ∀ p ∈ ps, '=' ∉ p.name ∧ '&' ∉ p.name ∧ '&' ∉ p.encoded ∧ StringSpec.Encodes p.value p.encoded
  differ : (ps.map fun p => lower p.name).Nodup
  http : ¬ "HTTP".toList <:+: "GET /".toList ++ ('?' :: List.intercalate ['&'] (ps.map fun p => p.name ++ '=' :: p.encoded))
  ascii : Ascii (queryLine ps tail)
  size : (queryLine ps tail).length < 2 ^ 64
  fuel : (queryLine ps tail).length < fuel

theorem good_parse {lower : Str → Str} {fuel : Nat} {ps : List Http.Param} {tail : Str} (g : Good lower fuel ps tail) :
    parseHttpRequest lower fuel (queryLine ps tail) = .ok (ps.map fun p => (lower p.name, p.value)) := by
  apply forget_ok
  rw [parse_forget lower fuel g.ascii]
  have hs := g.size
  have hf := g.fuel
  have hsh : queryLine ps tail = Http.line [' ', '/'] ps ++ ' ' :: (cHTTP ++ tail) := by
    unfold queryLine Http.line
    rfl
  have hlen : (queryLine ps tail).length = (Http.line [' ', '/'] ps).length + 1 + 4 + tail.length := by
    rw [hsh]; simp [cHTTP]; omega
  have := Http.parse_ok lower fuel [' ', '/'] tail ps g.some g.wf (by decide) (by
    have := g.http
    exact this) (by omega) (by omega)
  rw [if_pos g.differ] at this
  rw [hsh]
  exact this

theorem good_process {E : Engine} {fuel : Nat} {ps : List Http.Param} {tail : Str} (g : Good E.lower fuel ps tail) :
    process E fuel (queryLine ps tail) = (answer E fuel (queryLine ps tail)).map fun r => createHttpResponse r.1 r.2 := by
  have hlen : ("GET /".toList ++ ([] ++ '?' :: List.intercalate ['&'] (ps.map fun (p : Http.Param) => p.name ++ '=' :: p.encoded))).length + 1 ≤
      (queryLine ps tail).length := by
    unfold queryLine
    simp only [List.nil_append, List.length_append, List.length_cons]
    omega
  have h := process_params E fuel [] (List.intercalate ['&'] (ps.map fun (p : Http.Param) => p.name ++ '=' :: p.encoded)) tail (by simp) g.http
    (by have := g.size; omega)
  rw [if_pos rfl] at h
  exact h

/-- How the answer to a query is read: status 200, the content, and its type. -/
def Delivers (x : Run Str) (type content : Str) : Prop :=
  ∃ b r, x = .ok b ∧ readResponse b = some r ∧ r.status = 200 ∧ r.field "Content-Type".toList = some type ∧ r.body = content

theorem delivers_of {E : Engine} {fuel : Nat} {ps : List Http.Param} {tail content : Str} (g : Good E.lower fuel ps tail)
    (h : answer E fuel (queryLine ps tail) = .ok (content, jsonType)) :
    Delivers (process E fuel (queryLine ps tail)) "application/json; charset=utf-8".toList content := by
  refine ⟨_, _, by rw [good_process g, h]; rfl, C71_response content jsonType (by decide) (by decide), rfl, ?_, rfl⟩
  rfl

/-- A query is answered with its result: a client that asks with well-formed parameters gets what executing the query returns, as JSON
unless it asks for another format.
Missing for the full statement: request lines that contain the letters `HTTP` or characters that are not ASCII. -/
theorem C71_query_partial (E : Engine) (fuel : Nat) (ps : List Http.Param) (tail q content : Str) (g : Good E.lower fuel ps tail)
    (params : Params) (hps : params = ps.map fun p => (E.lower p.name, p.value))
    (hq : ("query".toList, q) ∈ params) (hne : q ≠ [])
    (hcmd : ∀ v, ("cmd".toList, v) ∈ params → lowerAscii v ≠ "stats".toList ∧ lowerAscii v ≠ "cachestats".toList)
    (hact : ∀ v, ("action".toList, v) ∈ params → lowerAscii v ≠ "csv_export".toList ∧ lowerAscii v ≠ "tsv_export".toList)
    (hx : E.exec .json params q = .ok content) :
    Delivers (process E fuel (queryLine ps tail)) "application/json; charset=utf-8".toList content := by
  subst hps
  have hnd : ((ps.map fun p => (E.lower p.name, p.value)).map Prod.fst).Nodup := by
    rw [List.map_map]; exact g.differ
  apply delivers_of g
  rw [answer_query E fuel (good_parse g) hnd hq hne hcmd, execute, if_neg (lowerValue_ne (by decide) fun v hv => (hact v hv).1),
    if_neg (lowerValue_ne (by decide) fun v hv => (hact v hv).2), hx]
  rfl

/-- The same for the whole connection, however the bytes of the request arrive. -/
theorem C71_connection_partial (E : Engine) (fuel : Nat) (ps : List Http.Param) (tail q content : Str) (g : Good E.lower fuel ps tail)
    (params : Params) (hps : params = ps.map fun p => (E.lower p.name, p.value))
    (hq : ("query".toList, q) ∈ params) (hne : q ≠ [])
    (hcmd : ∀ v, ("cmd".toList, v) ∈ params → lowerAscii v ≠ "stats".toList ∧ lowerAscii v ≠ "cachestats".toList)
    (hact : ∀ v, ("action".toList, v) ∈ params → lowerAscii v ≠ "csv_export".toList ∧ lowerAscii v ≠ "tsv_export".toList)
    (hx : E.exec .json params q = .ok content)
    (rs : List Recv) (headers : Str) (ho : Open rs) (hr : received rs = queryLine ps tail ++ "\r\n".toList ++ headers)
    (hline : '\r' ∉ queryLine ps tail) (hend : "\r\n\r\n".toList <:+: "\r\n".toList ++ headers) :
    Delivers (connection E fuel rs) "application/json; charset=utf-8".toList content := by
  obtain ⟨h, hg⟩ := C71_request_line rs (queryLine ps tail) headers ho hr hline (by simp [queryLine]) hend
  rw [connection, hg]
  exact C71_query_partial E fuel ps tail q content g params hps hq hne hcmd hact hx

/-- A server that answers every query with its text, and refuses the query `bad`. -/
def demo : Engine where
  lower := lowerAscii
  files := fun name => if name = "index.html".toList then some "hi".toList else none
  stats := .ok "{}".toList
  cacheStats := .ok "{}".toList
  exec := fun _ _ q => if q = "bad".toList then .throw "no".toList else .ok q
  msecs := 7

/-- A request that meets the hypotheses. -/
example : Good demo.lower 100 [⟨"Query".toList, "a b".toList, "a%20b".toList⟩, ⟨"send".toList, "5".toList, "5".toList⟩] "/1.1".toList where
  some := by decide
  wf := by
    intro p hp
    simp only [List.mem_cons, List.not_mem_nil, or_false] at hp
    rcases hp with rfl | rfl
    · refine ⟨by decide, by decide, by decide, (decode_ok "a%20b".toList 20 (by decide)).elim fun t h => ?_⟩
      have : t = "a b".toList := by
        have := h.1
        revert this
        rw [show decodeUrl 20 "a%20b".toList = .ok "a b".toList by decide +kernel]
        intro h; cases h; rfl
      rw [← this]; exact h.2
    · refine ⟨by decide, by decide, by decide, (decode_ok "5".toList 20 (by decide)).elim fun t h => ?_⟩
      have : t = "5".toList := by
        have := h.1
        revert this
        rw [show decodeUrl 20 "5".toList = .ok "5".toList by decide +kernel]
        intro h; cases h; rfl
      subst this
      exact h.2
  differ := by decide
  http := by decide +kernel
  ascii := by unfold Ascii; decide +kernel
  size := by decide +kernel
  fuel := by decide +kernel

example : process demo 100 "GET /?Query=a%20b&send=5 HTTP/1.1".toList = .ok (createHttpResponse "a b".toList jsonType) := by decide +kernel

theorem response_two (content type disp : Str) (ht : '\r' ∉ type) (hs : type.head? ≠ some ' ') (hd : '\r' ∉ disp) (hds : disp.head? ≠ some ' ') :
    readResponse (createHttpResponse content (type ++ "\r\nContent-Disposition: ".toList ++ disp)) =
      some ⟨200, [("Content-Length".toList, decimal content.length), ("Connection".toList, "close".toList), ("Content-Type".toList, type),
      ("Content-Disposition".toList, disp ++ "; charset=utf-8".toList), ("Access-Control-Allow-Origin".toList, "*".toList)], content⟩ := by
  have h := readResponse_eq "HTTP/1.1 200 OK".toList [("Content-Length".toList, decimal content.length),
      ("Connection".toList, "close".toList), ("Content-Type".toList, type), ("Content-Disposition".toList, disp ++ "; charset=utf-8".toList),
      ("Access-Control-Allow-Origin".toList, "*".toList)] content 200 (by decide) (by decide) (by
        intro p hp
        simp only [List.mem_cons, List.not_mem_nil, or_false] at hp
        have hdg : ∀ c ∈ decimal content.length, c ≠ '\r' ∧ c ≠ ' ' := by
          intro c hc
          have := decimal_digits _ c hc
          constructor <;> (rintro rfl; exact absurd this (by decide))
        rcases hp with rfl | rfl | rfl | rfl | rfl
        · refine ⟨show ':' ∉ "Content-Length".toList by decide, show '\r' ∉ "Content-Length".toList by decide, fun hm => (hdg _ hm).1 rfl, ?_⟩
          intro hh
          exact (hdg _ (List.mem_of_mem_head? hh)).2 rfl
        · decide
        · exact ⟨show ':' ∉ "Content-Type".toList by decide, show '\r' ∉ "Content-Type".toList by decide, ht, hs⟩
        · refine ⟨show ':' ∉ "Content-Disposition".toList by decide, show '\r' ∉ "Content-Disposition".toList by decide, ?_, ?_⟩
          · simp only [List.mem_append]
            rintro (h | h)
            · exact hd h
            · revert h; decide
          · cases disp with
            | nil => decide
            | cons c t => simpa using hds
        · decide) rfl
  rw [← h]
  congr 1
  unfold createHttpResponse
  generalize decimal content.length = d
  simp only [List.map_cons, List.map_nil, List.flatMap_cons, List.flatMap_nil, List.append_nil]
  rw [show "HTTP/1.1 200 OK\r\nContent-Length: ".toList =
      "HTTP/1.1 200 OK".toList ++ ['\r', '\n'] ++ ("Content-Length".toList ++ [':', ' ']) by decide,
    show "\r\nConnection: close\r\nContent-Type: ".toList =
      ['\r', '\n'] ++ ("Connection".toList ++ (':' :: ' ' :: "close".toList) ++ ['\r', '\n'] ++ ("Content-Type".toList ++ [':', ' '])) by decide,
    show "\r\nContent-Disposition: ".toList = ['\r', '\n'] ++ ("Content-Disposition".toList ++ [':', ' ']) by decide,
    show "; charset=utf-8\r\nAccess-Control-Allow-Origin: *\r\n\r\n".toList =
      "; charset=utf-8".toList ++ ['\r', '\n'] ++ ("Access-Control-Allow-Origin".toList ++ (':' :: ' ' :: "*".toList) ++ ['\r', '\n']) ++
        ['\r', '\n'] by decide]
  simp only [List.append_assoc, List.cons_append, List.nil_append]

/-- The export formats. The character set does not reach the type: it becomes part of the name of the file. -/
theorem C71_export_partial (E : Engine) (fuel : Nat) (ps : List Http.Param) (tail q v content : Str) (g : Good E.lower fuel ps tail)
    (params : Params) (hps : params = ps.map fun p => (E.lower p.name, p.value))
    (hq : ("query".toList, q) ∈ params) (hne : q ≠ [])
    (hcmd : ∀ v, ("cmd".toList, v) ∈ params → lowerAscii v ≠ "stats".toList ∧ lowerAscii v ≠ "cachestats".toList)
    (hact : ("action".toList, v) ∈ params) :
    (lowerAscii v = "csv_export".toList → E.exec .csv params q = .ok content →
      Delivers (process E fuel (queryLine ps tail)) "text/csv".toList content ∧
      ∃ b r, process E fuel (queryLine ps tail) = .ok b ∧ readResponse b = some r ∧
        r.field "Content-Disposition".toList = some "attachment;filename=export.csv; charset=utf-8".toList) ∧
    (lowerAscii v = "tsv_export".toList → E.exec .tsv params q = .ok content →
      Delivers (process E fuel (queryLine ps tail)) "text/tab-separated-values".toList content ∧
      ∃ b r, process E fuel (queryLine ps tail) = .ok b ∧ readResponse b = some r ∧
        r.field "Content-Disposition".toList = some "attachment;filename=export.tsv; charset=utf-8".toList) := by
  subst hps
  have hnd : ((ps.map fun p => (E.lower p.name, p.value)).map Prod.fst).Nodup := by
    rw [List.map_map]; exact g.differ
  constructor
  · intro hv hx
    have h1 : process E fuel (queryLine ps tail) = .ok (createHttpResponse content csvType) := by
      rw [good_process g, answer_query E fuel (good_parse g) hnd hq hne hcmd, execute, lowerValue_mem hnd hact, if_pos hv, hx]
      rfl
    have h2 := response_two content "text/csv".toList "attachment;filename=export.csv".toList (by decide) (by decide) (by decide) (by decide)
    rw [show "text/csv".toList ++ "\r\nContent-Disposition: ".toList ++ "attachment;filename=export.csv".toList = csvType by decide] at h2
    exact ⟨⟨_, _, h1, h2, rfl, rfl, rfl⟩, _, _, h1, h2, rfl⟩
  · intro hv hx
    have h1 : process E fuel (queryLine ps tail) = .ok (createHttpResponse content tsvType) := by
      rw [good_process g, answer_query E fuel (good_parse g) hnd hq hne hcmd, execute, lowerValue_mem hnd hact, hv, if_neg (by decide),
        if_pos rfl, hx]
      rfl
    have h2 := response_two content "text/tab-separated-values".toList "attachment;filename=export.tsv".toList (by decide) (by decide) (by decide)
      (by decide)
    rw [show "text/tab-separated-values".toList ++ "\r\nContent-Disposition: ".toList ++ "attachment;filename=export.tsv".toList = tsvType by
      decide] at h2
    exact ⟨⟨_, _, h1, h2, rfl, rfl, rfl⟩, _, _, h1, h2, rfl⟩

/-- The statistics of the index and of the cache. -/
theorem C71_stats (E : Engine) (fuel : Nat) (ps : List Http.Param) (tail v content : Str) (g : Good E.lower fuel ps tail)
    (params : Params) (hps : params = ps.map fun p => (E.lower p.name, p.value)) (hcmd : ("cmd".toList, v) ∈ params) :
    (lowerAscii v = "stats".toList → E.stats = .ok content →
      Delivers (process E fuel (queryLine ps tail)) "application/json; charset=utf-8".toList content) ∧
    (lowerAscii v = "cachestats".toList → E.cacheStats = .ok content →
      Delivers (process E fuel (queryLine ps tail)) "application/json; charset=utf-8".toList content) := by
  subst hps
  have hnd : ((ps.map fun p => (E.lower p.name, p.value)).map Prod.fst).Nodup := by
    rw [List.map_map]; exact g.differ
  constructor
  · intro hv hx
    apply delivers_of g
    have h : attempt E fuel (queryLine ps tail) = ⟨[], .nothing, .ok (content, jsonType)⟩ := by
      unfold attempt
      rw [good_parse g]
      simp only
      rw [lowerValue_mem hnd hcmd, if_pos hv, hx]
      rfl
    rw [answer, h]
    rfl
  · intro hv hx
    apply delivers_of g
    have h : attempt E fuel (queryLine ps tail) = ⟨[], .nothing, .ok (content, jsonType)⟩ := by
      unfold attempt
      rw [good_parse g]
      simp only
      rw [lowerValue_mem hnd hcmd, hv, if_neg (by decide), if_pos rfl, hx]
      rfl
    rw [answer, h]
    rfl

/-- What is delivered for a query that fails. -/
theorem C71_error_body (E : Engine) (fuel : Nat) (ps : List Http.Param) (tail q w : Str) (g : Good E.lower fuel ps tail)
    (params : Params) (hps : params = ps.map fun p => (E.lower p.name, p.value))
    (hq : ("query".toList, q) ∈ params) (hne : q ≠ [])
    (hcmd : ∀ v, ("cmd".toList, v) ∈ params → lowerAscii v ≠ "stats".toList ∧ lowerAscii v ≠ "cachestats".toList)
    (hx : ∀ f, E.exec f params q = .throw w) (hw : Utf8 w) (hqu : Utf8 q) :
    ∃ j, errorJson E.msecs q w = .ok j ∧ Delivers (process E fuel (queryLine ps tail)) "; charset=utf-8".toList j := by
  subst hps
  have hnd : ((ps.map fun p => (E.lower p.name, p.value)).map Prod.fst).Nodup := by
    rw [List.map_map]; exact g.differ
  obtain ⟨j, h1, h2, h3⟩ := errorJson_members E.msecs hqu hw
  have hex : execute E (ps.map fun p => (E.lower p.name, p.value)) q = .throw w := by
    unfold execute
    rw [hx, hx, hx]
    repeat' split
    all_goals rfl
  refine ⟨j, h1, _, _, ?_, C71_response j [] (by simp) (by simp), rfl, rfl, rfl⟩
  rw [good_process g, answer_query E fuel (good_parse g) hnd hq hne hcmd, hex]
  simp only [h1]
  rfl

/-- A query that fails: the client gets the text of the exception and the query, but with status 200 and without a type. -/
theorem C71_error (E : Engine) (fuel : Nat) (ps : List Http.Param) (tail q w : Str) (g : Good E.lower fuel ps tail)
    (params : Params) (hps : params = ps.map fun p => (E.lower p.name, p.value))
    (hq : ("query".toList, q) ∈ params) (hne : q ≠ [])
    (hcmd : ∀ v, ("cmd".toList, v) ∈ params → lowerAscii v ≠ "stats".toList ∧ lowerAscii v ≠ "cachestats".toList)
    (hx : ∀ f, E.exec f params q = .throw w) (hw : Utf8 w) (hw0 : '\x00' ∉ w) (hqu : Utf8 q) :
    ∃ j, Delivers (process E fuel (queryLine ps tail)) "; charset=utf-8".toList j ∧ Member j "exception".toList w ∧ Member j "query".toList q := by
  subst hps
  have hnd : ((ps.map fun p => (E.lower p.name, p.value)).map Prod.fst).Nodup := by
    rw [List.map_map]; exact g.differ
  obtain ⟨j, h1, h2, h3⟩ := errorJson_members E.msecs hqu hw
  have hcut : w.takeWhile (· != '\x00') = w := by
    have := takeWhile_append_all (p := (· != '\x00')) (a := w) (b := []) (by
      intro c hc
      simp only [bne_iff_ne]
      rintro rfl; exact hw0 hc)
    simpa using this
  rw [hcut] at h2
  have hex : execute E (ps.map fun p => (E.lower p.name, p.value)) q = .throw w := by
    unfold execute
    rw [hx, hx, hx]
    repeat' split
    all_goals rfl
  refine ⟨j, ⟨_, _, ?_, C71_response j [] (by simp) (by simp), rfl, rfl, rfl⟩, h2, h3⟩
  rw [good_process g, answer_query E fuel (good_parse g) hnd hq hne hcmd, hex]
  simp only [h1]
  rfl

example : ∀ f, demo.exec f [("query".toList, "bad".toList)] "bad".toList = .throw "no".toList := by
  intro f
  simp only [demo, if_true]

/-- A query that fails and is not UTF-8 ends the server. -/
theorem C71_query_stops (E : Engine) (fuel : Nat) (ps : List Http.Param) (tail q w : Str) (g : Good E.lower fuel ps tail)
    (params : Params) (hps : params = ps.map fun p => (E.lower p.name, p.value))
    (hq : ("query".toList, q) ∈ params) (hqb : ∀ c ∈ q, c.toNat < 256)
    (hcmd : ∀ v, ("cmd".toList, v) ∈ params → lowerAscii v ≠ "stats".toList ∧ lowerAscii v ≠ "cachestats".toList)
    (hx : ∀ f, E.exec f params q = .throw w) (hqu : ¬ Utf8 q) :
    ∃ what, process E fuel (queryLine ps tail) = .throw what := by
  subst hps
  have hnd : ((ps.map fun p => (E.lower p.name, p.value)).map Prod.fst).Nodup := by
    rw [List.map_map]; exact g.differ
  have hne : q ≠ [] := by
    rintro rfl
    exact hqu ⟨[], by simp, rfl⟩
  have hex : execute E (ps.map fun p => (E.lower p.name, p.value)) q = .throw w := by
    unfold execute
    rw [hx, hx, hx]
    repeat' split
    all_goals rfl
  have hj : ∃ what, errorJson E.msecs q w = .throw what := by
    unfold errorJson
    rcases dumpLoop_cases (w.takeWhile (· != '\x00')) 0 0 [] with ⟨t, ht⟩ | ht
    · rw [dumpString_throw hqb hqu, dumpString, ht]
      exact ⟨_, rfl⟩
    · rw [dumpString, ht]
      exact ⟨_, rfl⟩
  obtain ⟨what, hj⟩ := hj
  refine ⟨what, ?_⟩
  rw [good_process g, answer_query E fuel (good_parse g) hnd hq hne hcmd, hex]
  simp only [hj]
  rfl

/-- It is enough that the query fails in the format in which it is asked for. -/
theorem C71_json_stops (E : Engine) (fuel : Nat) (ps : List Http.Param) (tail q w : Str) (g : Good E.lower fuel ps tail)
    (params : Params) (hps : params = ps.map fun p => (E.lower p.name, p.value))
    (hq : ("query".toList, q) ∈ params) (hqb : ∀ c ∈ q, c.toNat < 256)
    (hcmd : ∀ v, ("cmd".toList, v) ∈ params → lowerAscii v ≠ "stats".toList ∧ lowerAscii v ≠ "cachestats".toList)
    (hact : ∀ v, ("action".toList, v) ∈ params → lowerAscii v ≠ "csv_export".toList ∧ lowerAscii v ≠ "tsv_export".toList)
    (hx : E.exec .json params q = .throw w) (hqu : ¬ Utf8 q) :
    ∃ what, process E fuel (queryLine ps tail) = .throw what := by
  subst hps
  have hnd : ((ps.map fun p => (E.lower p.name, p.value)).map Prod.fst).Nodup := by
    rw [List.map_map]; exact g.differ
  have hne : q ≠ [] := by
    rintro rfl
    exact hqu ⟨[], by simp, rfl⟩
  have hex : execute E (ps.map fun p => (E.lower p.name, p.value)) q = .throw w := by
    rw [execute, if_neg (lowerValue_ne (by decide) fun v hv => (hact v hv).1),
      if_neg (lowerValue_ne (by decide) fun v hv => (hact v hv).2), hx]
    rfl
  have hj : ∃ what, errorJson E.msecs q w = .throw what := by
    unfold errorJson
    rcases dumpLoop_cases (w.takeWhile (· != '\x00')) 0 0 [] with ⟨t, ht⟩ | ht
    · rw [dumpString_throw hqb hqu, dumpString, ht]
      exact ⟨_, rfl⟩
    · rw [dumpString, ht]
      exact ⟨_, rfl⟩
  obtain ⟨what, hj⟩ := hj
  refine ⟨what, ?_⟩
  rw [good_process g, answer_query E fuel (good_parse g) hnd hq hne hcmd, hex]
  simp only [hj]
  rfl

/-- Such a request: the query is the byte 255. -/
theorem C71_utf8_stops (E : Engine) (h : ∀ f params, E.exec f params "\xff".toList = .throw "no".toList) (hl : E.lower = lowerAscii) :
    process E 60 "GET /?query=%FF HTTP/1.1".toList = .throw notUtf8 := by
  obtain ⟨lower, files, stats, cacheStats, exec, msecs⟩ := E
  simp only at hl
  subst hl
  have e : ∀ E' : Engine, E'.lower = lowerAscii → parseHttpRequest E'.lower 60 "GET /?query=%FF HTTP/1.1".toList =
      .ok [("query".toList, "\xff".toList)] := by
    intro E' he
    rw [he]
    decide +kernel
  have h2 := process_params ⟨lowerAscii, files, stats, cacheStats, exec, msecs⟩ 60 [] "query=%FF".toList "/1.1".toList (by decide)
    (by decide +kernel) (by decide +kernel)
  rw [if_pos rfl] at h2
  rw [show "GET /?query=%FF HTTP/1.1".toList = "GET /".toList ++ ([] ++ '?' :: "query=%FF".toList) ++ ' ' :: (cHTTP ++ "/1.1".toList) by decide +kernel,
    h2, show "GET /".toList ++ ([] ++ '?' :: "query=%FF".toList) ++ ' ' :: (cHTTP ++ "/1.1".toList) = "GET /?query=%FF HTTP/1.1".toList by decide +kernel,
    answer_query _ 60 (e _ rfl) (by decide) (q := "\xff".toList) (by decide) (by decide) (by
      intro v hv
      simp only [List.mem_cons, List.not_mem_nil, or_false, Prod.mk.injEq] at hv
      exact absurd hv.1 (by decide))]
  have hex : execute ⟨lowerAscii, files, stats, cacheStats, exec, msecs⟩ [("query".toList, "\xff".toList)] "\xff".toList = .throw "no".toList := by
    unfold execute
    rw [if_neg (by decide), if_neg (by decide)]
    simp only at h
    simp only [h, Run.map]
  rw [hex]
  rfl

/-- A byte that is not UTF-8 in the request line ends the server, whatever the rest of the server does. -/
theorem C71_byte_stops (E : Engine) (fuel : Nat) : process E (fuel + 1) "GET /?\xff HTTP/1.1".toList = .throw notUtf8 := by
  have hp : ∃ w, parseHttpRequest E.lower (fuel + 1) "GET /?\xff HTTP/1.1".toList = .throw w ∧ dumpString (w.takeWhile (· != '\x00')) = .throw notUtf8 := by
    refine ⟨badRequest ("Parameter without \"=\" in HTTP Request.".toList ++ "GET /?\xff HTTP/1.1".toList), ?_, by decide +kernel⟩
    unfold parseHttpRequest
    rw [show find cGET "GET /?\xff HTTP/1.1".toList 0 = some 0 by decide +kernel,
      show find cHTTP "GET /?\xff HTTP/1.1".toList 0 = some 8 by decide +kernel]
    simp only
    rw [show substr "GET /?\xff HTTP/1.1".toList (0 + 3) (sub64 8 (0 + 3)) = .ok " /?\xff ".toList by decide +kernel]
    simp only [Run.lift, Run.bind]
    rw [show findPos (· == '?') " /?\xff ".toList 0 = some 2 by decide +kernel]
    simp only
    rw [show findPos (· == '&') " /?\xff ".toList (2 + 1) = none by decide +kernel]
    simp only [paramsLoop, param]
    rw [show findPos (· == '=') " /?\xff ".toList (2 + 1) = none by decide +kernel]
  obtain ⟨w, hp, hw⟩ := hp
  have h2 := process_params E (fuel + 1) [] "\xff".toList "/1.1".toList (by decide) (by decide +kernel) (by decide +kernel)
  rw [if_pos rfl] at h2
  have e : "GET /".toList ++ ([] ++ '?' :: "\xff".toList) ++ ' ' :: (cHTTP ++ "/1.1".toList) = "GET /?\xff HTTP/1.1".toList := by decide +kernel
  rw [e] at h2
  have ha : attempt E (fuel + 1) "GET /?\xff HTTP/1.1".toList = ⟨[], .nothing, .throw w⟩ := by
    unfold attempt
    rw [hp]
  rw [h2, answer, ha, caught]
  simp only
  unfold errorJson
  rw [hw]
  rfl

/-- A request line with `HTTP` before a `GET` that is not followed by two characters ends the server. -/
theorem C71_get_stops (E : Engine) (fuel : Nat) (a b : Str) (hg : ¬ "GET".toList <:+: a ++ "GE".toList) (hh : "HTTP".toList <:+: a)
    (hb : b.length < 2) : process E fuel (a ++ "GET".toList ++ b) = .throw outOfRange := by
  have h1 : find cGET (a ++ "GET".toList ++ b) 0 = some a.length := by
    rw [List.append_assoc]
    refine find_eq (by omega) (by simp) (by rw [List.drop_left]; exact ⟨b, rfl⟩) ?_
    intro j _ hj hp
    have e : a ++ ("GET".toList ++ b) = (a ++ "GE".toList) ++ ('T' :: b) := by
      rw [List.append_assoc]; rfl
    have hl : (a ++ "GE".toList).length = a.length + 2 := by simp
    rw [e, List.drop_append_of_le_length (by omega)] at hp
    have h := List.prefix_of_prefix_length_le hp (List.prefix_append ((a ++ "GE".toList).drop j) ('T' :: b)) (by
      rw [List.length_drop, hl]; simp only [cGET, List.length_cons, List.length_nil]; omega)
    exact hg (List.IsInfix.trans h.isInfix (List.drop_suffix _ _).isInfix)
  have h2 : ∃ i, find cHTTP (a ++ "GET".toList ++ b) 0 = some i := by
    cases h : find cHTTP (a ++ "GET".toList ++ b) 0 with
    | some i => exact ⟨i, rfl⟩
    | none =>
      refine absurd ?_ (find_infix.mp h)
      rw [List.append_assoc]
      exact List.IsInfix.trans (show cHTTP <:+: a from hh) (List.prefix_append _ _).isInfix
  obtain ⟨i, h2⟩ := h2
  unfold process
  rw [h1, h2]
  simp only
  unfold requested substr
  rw [if_neg (by simp; omega)]
  rfl

example : ¬ "GET".toList <:+: "HTTP ".toList ++ "GE".toList ∧ "HTTP".toList <:+: "HTTP ".toList ∧ ([] : Str).length < 2 := by decide +kernel

/-- A byte that is not UTF-8 in the name of a parameter is undefined behaviour. -/
theorem C71_name_ub (E : Engine) (fuel : Nat) : process E (fuel + 1) "GET /?a\xff=b HTTP/1.1".toList = .ub := by
  have hp : parseHttpRequest E.lower (fuel + 1) "GET /?a\xff=b HTTP/1.1".toList = .ub := by
    unfold parseHttpRequest
    rw [show find cGET "GET /?a\xff=b HTTP/1.1".toList 0 = some 0 by decide +kernel,
      show find cHTTP "GET /?a\xff=b HTTP/1.1".toList 0 = some 11 by decide +kernel]
    simp only
    rw [show substr "GET /?a\xff=b HTTP/1.1".toList (0 + 3) (sub64 11 (0 + 3)) = .ok " /?a\xff=b ".toList by decide +kernel]
    simp only [Run.lift, Run.bind]
    rw [show findPos (· == '?') " /?a\xff=b ".toList 0 = some 2 by decide +kernel]
    simp only
    rw [show findPos (· == '&') " /?a\xff=b ".toList (2 + 1) = none by decide +kernel]
    simp only [paramsLoop, param]
    rw [show findPos (· == '=') " /?a\xff=b ".toList (2 + 1) = some 5 by decide +kernel]
    simp only
    rw [show substr " /?a\xff=b ".toList (2 + 1) (sub64 5 (2 + 1)) = .ok "a\xff".toList by decide +kernel]
    simp only [Run.lift, Run.bind, lowerUtf8]
    rw [show dumpLoop 0 0 [] "a\xff".toList = .throw notUtf8 by decide +kernel]
  have h2 := process_params E (fuel + 1) [] "a\xff=b".toList "/1.1".toList (by decide) (by decide +kernel) (by decide +kernel)
  rw [if_pos rfl] at h2
  have e : "GET /".toList ++ ([] ++ '?' :: "a\xff=b".toList) ++ ' ' :: (cHTTP ++ "/1.1".toList) = "GET /?a\xff=b HTTP/1.1".toList := by decide +kernel
  rw [e] at h2
  have ha : attempt E (fuel + 1) "GET /?a\xff=b HTTP/1.1".toList = ⟨[], .nothing, .ub⟩ := by
    unfold attempt
    rw [hp]
  rw [h2, answer, ha]
  rfl

/-- The letters `GET` in the parameters of another method: not status 400. -/
theorem C71_post_violated (E : Engine) (fuel : Nat) :
    ∃ b, process E fuel "POST /?x=TARGET HTTP/1.1".toList = .ok b ∧ (readResponse b).map Response.status = some 404 := by
  refine ⟨response404, ?_, by decide +kernel⟩
  unfold process
  rw [show find cGET "POST /?x=TARGET HTTP/1.1".toList 0 = some 12 by decide +kernel,
    show find cHTTP "POST /?x=TARGET HTTP/1.1".toList 0 = some 16 by decide +kernel]
  simp only
  rw [show requested "POST /?x=TARGET HTTP/1.1".toList 12 16 = .ok "TTP/1.1".toList by decide +kernel]
  simp only [Run.bind]
  unfold respond
  rw [if_neg (by decide), if_neg (by decide), if_neg (by decide)]

/-- The cache is cleared, but the answer is an error. -/
theorem C71_clear (E : Engine) (hl : E.lower = lowerAscii) : (attempt E 60 "GET /?cmd=clearcache HTTP/1.1".toList).clear = .unpinned ∧
    ∃ w, (attempt E 60 "GET /?cmd=clearcache HTTP/1.1".toList).result = .throw w := by
  have e : parseHttpRequest E.lower 60 "GET /?cmd=clearcache HTTP/1.1".toList = .ok [("cmd".toList, "clearcache".toList)] := by
    rw [hl]; decide +kernel
  unfold attempt
  rw [e]
  exact ⟨rfl, _, rfl⟩

/-! ### The server survives -/

/-- The rest of the server returns or throws an exception with a text in UTF-8. -/
def Settles (x : Run Str) : Prop := (∃ a, x = .ok a) ∨ ∃ w, x = .throw w ∧ Utf8 w

theorem settle {x : Run Str} (t : Str) (h : Settles x) : (∃ r, (x.map fun s => (s, t)) = .ok r) ∨
    ∃ w, (x.map fun s => (s, t)) = .throw w ∧ Utf8 w := by
  rcases h with ⟨a, rfl⟩ | ⟨w, rfl, h⟩
  · exact .inl ⟨_, rfl⟩
  · exact .inr ⟨w, rfl, h⟩

theorem caught_ok (E : Engine) (a : Attempt) (h1 : Utf8 a.query) (h2 : (∃ r, a.result = .ok r) ∨ ∃ w, a.result = .throw w ∧ Utf8 w) :
    ∃ r, caught E a = .ok r := by
  unfold caught
  rcases h2 with ⟨r, h2⟩ | ⟨w, h2, h3⟩
  · rw [h2]; exact ⟨r, rfl⟩
  · rw [h2]
    obtain ⟨j, h, _⟩ := errorJson_members E.msecs h1 h3
    exact ⟨(j, []), by simp only [h]; rfl⟩

theorem attempt_settles (E : Engine) (fuel : Nat) (request : Str) (ha : Ascii request) (hf : request.length + 1 < fuel)
    (hlow : ∀ s, Ascii s → Ascii (E.lower s)) (hs : Settles E.stats) (hc : Settles E.cacheStats)
    (hx : ∀ f params q, Settles (E.exec f params q))
    (hq : ∀ params q, Http.parseHttpRequest E.lower fuel request = .ok params → ("query".toList, q) ∈ params → Utf8 q) :
    Utf8 (attempt E fuel request).query ∧ ((∃ r, (attempt E fuel request).result = .ok r) ∨
      ∃ w, (attempt E fuel request).result = .throw w ∧ Utf8 w) := by
  have nil8 : Utf8 [] := ⟨[], by simp, rfl⟩
  unfold attempt
  rcases fine_parse E.lower hlow fuel ha hf with ⟨params, hp, _⟩ | ⟨w, hp, hw⟩
  · have hp' : Http.parseHttpRequest E.lower fuel request = .ok params := by
      rw [← parse_forget E.lower fuel ha, hp]; rfl
    replace hq := hq params
    rw [hp]
    simp only
    generalize lowerValue params "cmd".toList = cmd
    by_cases h1 : cmd = "stats".toList
    · rw [if_pos h1]; exact ⟨nil8, settle _ hs⟩
    rw [if_neg h1]
    by_cases h2 : cmd = "cachestats".toList
    · rw [if_pos h2]; exact ⟨nil8, settle _ hc⟩
    rw [if_neg h2]
    cases hcq : Http.createQuery params with
    | ok q =>
      constructor
      · refine hq q hp' ?_
        unfold Http.createQuery at hcq
        cases hfq : params.find? fun p => p.1 == Http.cQuery with
        | none => rw [hfq] at hcq; cases hcq
        | some p =>
          rw [hfq] at hcq
          simp only at hcq
          by_cases he : p.2 = []
          · rw [if_pos he] at hcq; cases hcq
          · rw [if_neg he] at hcq
            cases hcq
            have h1 := List.find?_some hfq
            simp only [beq_iff_eq] at h1
            have : ("query".toList, p.2) = p := by rw [show "query".toList = Http.cQuery from rfl, ← h1]
            rw [this]
            exact List.mem_of_find?_eq_some hfq
      · simp only
        unfold execute
        repeat' split
        all_goals exact settle _ (hx _ _ _)
    | throw => exact ⟨nil8, .inr ⟨_, rfl, utf8_of_ascii (ascii_bad (by unfold Ascii; decide))⟩⟩
    | ub =>
      unfold Http.createQuery at hcq
      repeat' split at hcq
      all_goals cases hcq
    | diverge =>
      unfold Http.createQuery at hcq
      repeat' split at hcq
      all_goals cases hcq
  · rw [hp]; exact ⟨nil8, .inr ⟨w, rfl, utf8_of_ascii hw⟩⟩

theorem requested_ok {request : Str} {get http : Nat} (h5 : get + 5 ≤ request.length) : ∃ file, requested request get http = .ok file := by
  unfold requested
  rw [substr_ok _ h5]
  exact ⟨_, rfl⟩

theorem respond_ok (E : Engine) (fuel : Nat) (request : Str) (get : Nat) (file : Str) {r : Str × Str} (hans : answer E fuel request = .ok r) :
    ∃ b, respond E fuel request get file = .ok b := by
  unfold respond
  by_cases h1 : file = [] ∧ request[get + 5]? ≠ some '?'
  · rw [if_pos h1]; exact ⟨_, rfl⟩
  rw [if_neg h1]
  by_cases h6 : file = []
  · rw [if_pos h6, hans]; exact ⟨_, rfl⟩
  rw [if_neg h6]
  by_cases h7 : file ∈ whiteList
  · rw [if_pos h7]; exact ⟨_, rfl⟩
  · rw [if_neg h7]; exact ⟨_, rfl⟩

/-- A request line of ASCII characters whose query is UTF-8 gets an answer.
Missing for the full statement: see `C71_query_stops`, `C71_byte_stops`, `C71_get_stops`, `C71_name_ub`. -/
theorem C71_alive_partial (E : Engine) (fuel : Nat) (request : Str) (ha : Ascii request) (hf : request.length + 1 < fuel)
    (hget : ∀ a b, request = a ++ "GET".toList ++ b → 2 ≤ b.length)
    (hlow : ∀ s, Ascii s → Ascii (E.lower s)) (hs : Settles E.stats) (hc : Settles E.cacheStats)
    (hx : ∀ f params q, Settles (E.exec f params q))
    (hq : ∀ params q, Http.parseHttpRequest E.lower fuel request = .ok params → ("query".toList, q) ∈ params → Utf8 q) :
    ∃ b, process E fuel request = .ok b := by
  have h0 := attempt_settles E fuel request ha hf hlow hs hc hx hq
  obtain ⟨r, hans⟩ := caught_ok E (attempt E fuel request) h0.1 h0.2
  replace hans : answer E fuel request = .ok r := hans
  cases hg : find cGET request 0 with
  | none => exact ⟨response400, by rw [process, hg]⟩
  | some get =>
    cases hh : find cHTTP request 0 with
    | none => exact ⟨response400, by rw [process, hg, hh]⟩
    | some http =>
      obtain ⟨_, h2, h3, _⟩ := find_some hg
      obtain ⟨b, hb⟩ := h3
      have h5 : get + 5 ≤ request.length := by
        have := hget (request.take get) b (by
          rw [List.append_assoc, show "GET".toList = cGET from rfl, hb, List.take_append_drop])
        have hl := congrArg List.length hb
        rw [List.length_append, List.length_drop, show cGET.length = 3 from rfl] at hl
        omega
      obtain ⟨file, hfile⟩ := requested_ok (http := http) h5
      rw [process, hg, hh]
      simp only
      rw [hfile]
      exact respond_ok E fuel request get file hans

/-- The engine of the examples meets the hypotheses. -/
example : (∀ s, Ascii s → Ascii (demo.lower s)) ∧ Settles demo.stats ∧ Settles demo.cacheStats ∧ (∀ f params q, Settles (demo.exec f params q)) := by
  refine ⟨?_, .inl ⟨_, rfl⟩, .inl ⟨_, rfl⟩, ?_⟩
  · intro s hs c hc
    have hc : c ∈ lowerAscii s := hc
    obtain ⟨d, hd, rfl⟩ := List.mem_map.mp hc
    have := hs d hd
    have key : ∀ n < 128, (if 'A' ≤ Char.ofNat n ∧ Char.ofNat n ≤ 'Z' then Char.ofNat ((Char.ofNat n).toNat + 32) else Char.ofNat n).toNat < 128 := by
      decide +kernel
    have := key d.toNat this
    rwa [ofNat_toNat] at this
  · intro f params q
    by_cases h : q = "bad".toList
    · exact .inr ⟨"no".toList, if_pos h, utf8_of_ascii (by unfold Ascii; decide)⟩
    · exact .inl ⟨q, if_neg h⟩

end Verif.Server
