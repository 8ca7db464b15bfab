import Verif.Lemmas.Http
/-
C44: URL decoding inverts URL encoding and request parameters are recovered.

`fuel` bounds the iterations of a loop; the theorems hold for every sufficiently large number.
-/
namespace Verif.Http
open StringUtils StringSpec

/-- `decodeUrl` returns `s` exactly if its argument is a percent-encoded form of `s`; every string is a percent-encoded form of one
string. -/
theorem C44_decode (s e : List Char) (fuel : Nat) (hf : e.length < fuel) : decodeUrl fuel e = .ok s ↔ Encodes s e := by
  obtain ⟨t, h1, h2⟩ := decode_ok e fuel hf
  rw [h1]
  constructor
  · intro h
    cases h; exact h2
  · intro h
    rw [encodes_unique h2 h]

theorem C44_decode_total (e : List Char) (fuel : Nat) (hf : e.length < fuel) : ∃ s, decodeUrl fuel e = .ok s := by
  obtain ⟨t, h1, _⟩ := decode_ok e fuel hf
  exact ⟨t, h1⟩

example : decodeUrl 20 "a+%2b%2B%zz%4".toList = .ok "a ++%zz%4".toList := by decide +kernel

/-- Decoding inverts the usual encoding, for all byte strings. -/
theorem C44_roundtrip (s : List Char) (hb : ∀ c ∈ s, c.toNat < 256) (fuel : Nat) (hf : (encode s).length < fuel) :
    decodeUrl fuel (encode s) = .ok s := (C44_decode s (encode s) fuel hf).mpr (encodes_encode s hb)

example : (∀ c ∈ "a+ %&\xff".toList, c.toNat < 256) ∧ encode "a+ %&\xff".toList = "a%2B%20%25%26%FF".toList := by decide +kernel

/-- A request line with well-formed parameters whose names differ gives these parameters, with lower-case names and decoded values.
Missing for the full statement: request lines that contain the letters `HTTP`, see `C44_http_violated`. -/
theorem C44_request_partial (lower : List Char → List Char) (fuel : Nat) (path tail : List Char) (ps : List Param) (hne : ps ≠ [])
    (hwf : ∀ p ∈ ps, '=' ∉ p.name ∧ '&' ∉ p.name ∧ '&' ∉ p.encoded ∧ Encodes p.value p.encoded)
    (hnd : (ps.map fun p => lower p.name).Nodup) (hpath : '?' ∉ path)
    (hhttp : ¬ "HTTP".toList <:+: "GET".toList ++ (path ++ '?' :: List.intercalate ['&'] (ps.map fun p => p.name ++ '=' :: p.encoded)))
    (hsize : ("GET".toList ++ (path ++ '?' :: List.intercalate ['&'] (ps.map fun p => p.name ++ '=' :: p.encoded))).length + 1 < 2 ^ 64)
    (hfuel : ("GET".toList ++ (path ++ '?' :: List.intercalate ['&'] (ps.map fun p => p.name ++ '=' :: p.encoded))).length + 1 < fuel) :
    parseHttpRequest lower fuel
        ("GET".toList ++ (path ++ '?' :: List.intercalate ['&'] (ps.map fun p => p.name ++ '=' :: p.encoded)) ++
          ' ' :: ("HTTP".toList ++ tail)) =
      .ok (ps.map fun p => (lower p.name, p.value)) := by
  have := parse_ok lower fuel path tail ps hne hwf hpath hhttp hsize hfuel
  rw [if_pos hnd] at this
  exact this

/-- A request in which a parameter occurs twice, in any case, is refused. -/
theorem C44_duplicate (lower : List Char → List Char) (fuel : Nat) (path tail : List Char) (ps : List Param) (hne : ps ≠ [])
    (hwf : ∀ p ∈ ps, '=' ∉ p.name ∧ '&' ∉ p.name ∧ '&' ∉ p.encoded ∧ Encodes p.value p.encoded)
    (hnd : ¬ (ps.map fun p => lower p.name).Nodup) (hpath : '?' ∉ path)
    (hhttp : ¬ "HTTP".toList <:+: "GET".toList ++ (path ++ '?' :: List.intercalate ['&'] (ps.map fun p => p.name ++ '=' :: p.encoded)))
    (hsize : ("GET".toList ++ (path ++ '?' :: List.intercalate ['&'] (ps.map fun p => p.name ++ '=' :: p.encoded))).length + 1 < 2 ^ 64)
    (hfuel : ("GET".toList ++ (path ++ '?' :: List.intercalate ['&'] (ps.map fun p => p.name ++ '=' :: p.encoded))).length + 1 < fuel) :
    parseHttpRequest lower fuel
        ("GET".toList ++ (path ++ '?' :: List.intercalate ['&'] (ps.map fun p => p.name ++ '=' :: p.encoded)) ++
          ' ' :: ("HTTP".toList ++ tail)) = .throw := by
  have := parse_ok lower fuel path tail ps hne hwf hpath hhttp hsize hfuel
  rw [if_neg hnd] at this
  exact this

example : parseHttpRequest (·.map toLower) 60 "GET /?query=a&QUERY=b HTTP/1.1".toList = .throw := by decide +kernel

/-- A request without parameters is refused. -/
theorem C44_no_parameters (lower : List Char → List Char) (fuel : Nat) (path tail : List Char) (hpath : '?' ∉ path)
    (hhttp : ¬ "HTTP".toList <:+: "GET".toList ++ path) (hsize : ("GET".toList ++ path).length + 1 < 2 ^ 64) :
    parseHttpRequest lower fuel ("GET".toList ++ path ++ ' ' :: ("HTTP".toList ++ tail)) = .throw :=
  parse_no_params lower fuel path tail hpath hhttp hsize

example : '?' ∉ " /favicon.ico".toList ∧ ¬ "HTTP".toList <:+: "GET".toList ++ " /favicon.ico".toList := by decide +kernel

/-- Values encoded in the usual way have no ampersand, so all byte strings can be values. -/
theorem C44_encode_amp (s : List Char) (hb : ∀ c ∈ s, c.toNat < 256) : '&' ∉ encode s ∧ Encodes s (encode s) := by
  refine ⟨?_, encodes_encode s hb⟩
  have hx : ∀ n < 16, hexChar n ≠ '&' := by decide +kernel
  intro h
  simp only [encode, List.mem_flatMap] at h
  obtain ⟨c, hc, h⟩ := h
  have := hb c hc
  by_cases hu : unreserved c = true
  · rw [if_pos hu, List.mem_singleton] at h
    subst h
    exact absurd hu (by decide)
  · rw [if_neg hu] at h
    simp only [List.mem_cons, List.not_mem_nil, or_false] at h
    rcases h with h | h | h
    · exact absurd h (by decide)
    · exact hx _ (by omega) h.symm
    · exact hx _ (by omega) h.symm

/-- Two parameters that meet the hypotheses; the second value has an encoded ampersand, a plus sign and an equals sign. -/
example : let ps : List Param := [⟨"cmd".toList, "x y".toList, "x+y".toList⟩, ⟨"Query".toList, "a&=b".toList, "a%26=b".toList⟩]
    ps ≠ [] ∧ (∀ p ∈ ps, '=' ∉ p.name ∧ '&' ∉ p.name ∧ '&' ∉ p.encoded) ∧ (ps.map fun p => p.name).Nodup ∧
    (∀ p ∈ ps, decodeUrl 20 p.encoded = .ok p.value) ∧
    parseHttpRequest (·.map toLower) 60 "GET /?cmd=x+y&Query=a%26=b HTTP/1.1".toList =
      .ok [("cmd".toList, "x y".toList), ("query".toList, "a&=b".toList)] := by decide +kernel

/-- The query is the value of the parameter `query`, if it is not empty. -/
theorem C44_query (params : Params) (v : List Char) (hnd : (params.map Prod.fst).Nodup) (hv : v ≠ []) :
    createQuery params = .ok v ↔ (("query".toList, v) ∈ params) := by
  have key : ∀ (l : Params), (l.map Prod.fst).Nodup → ∀ a ∈ l, ∀ b ∈ l, a.1 = b.1 → a = b := by
    intro l
    induction l with
    | nil => simp
    | cons x l ih =>
      intro hn a ha b hb he
      simp only [List.map_cons, List.nodup_cons, List.mem_map, not_exists, not_and] at hn
      rcases List.mem_cons.mp ha with rfl | ha2
      · rcases List.mem_cons.mp hb with rfl | hb
        · rfl
        · exact absurd he.symm (hn.1 b hb)
      · rcases List.mem_cons.mp hb with rfl | hb
        · exact absurd he (hn.1 a ha2)
        · exact ih hn.2 a ha2 b hb he
  unfold createQuery
  have hq : cQuery = "query".toList := by decide
  constructor
  · intro h
    cases hf : params.find? fun p => p.1 == cQuery with
    | none => rw [hf] at h; simp at h
    | some p =>
      rw [hf] at h
      dsimp only at h
      by_cases hp : p.2 = []
      · rw [if_pos hp] at h; cases h
      · rw [if_neg hp] at h
        cases h
        have h1 := List.find?_some hf
        simp only [beq_iff_eq] at h1
        rw [← hq, ← h1]
        exact List.mem_of_find?_eq_some hf
  · intro h
    cases hf : params.find? fun p => p.1 == cQuery with
    | none =>
      have := List.find?_eq_none.mp hf _ h
      rw [hq] at this
      simp at this
    | some p =>
      have h1 := List.find?_some hf
      simp only [beq_iff_eq] at h1
      have h2 : p = ("query".toList, v) := by
        have hm := List.mem_of_find?_eq_some hf
        exact key params hnd p hm _ h (by rw [h1, hq])
      subst h2
      dsimp only
      rw [if_neg hv]

/-- A query with the letters `HTTP` is cut off: the request line is taken to end there. -/
theorem C44_http_violated :
    parseHttpRequest (·.map toLower) 60 "GET /?query=SELECTxHTTPy HTTP/1.1".toList =
      .ok [("query".toList, "SELECT".toList)] := by decide +kernel

/-- A parameter without value takes the name and the value of the next one, with the space before the version. -/
theorem C44_flag_violated :
    parseHttpRequest (·.map toLower) 60 "GET /?pin&query=a HTTP/1.1".toList =
      .ok [("pin&query".toList, "a ".toList), ("query".toList, "a".toList)] := by decide +kernel

end Verif.Http
