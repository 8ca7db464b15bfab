import Verif.Model.Configuration
/-
C86: A server reads the configuration that the index builder wrote, also after the conversion of an old index.
-/
namespace Verif.Configuration

theorem getLines_line (p : Str) (hp : '\n' ∉ p) (cur s : Str) : getLines cur (p ++ '\n' :: s) = (cur.reverse ++ p) :: getLines [] s := by
  induction p generalizing cur with
  | nil => simp [getLines]
  | cons c p ih =>
    have hc : c ≠ '\n' := fun h => hp (by simp [h])
    rw [List.cons_append, getLines, if_neg hc, ih (fun h => hp (List.mem_cons_of_mem _ h))]
    simp

/-- **The file with the prefixes** gives the same prefixes, empty ones too, if no prefix has a line feed. -/
theorem C86_prefix_file (ps : List Str) (h : ∀ p ∈ ps, '\n' ∉ p) : getLines [] (prefixText ps) = ps := by
  induction ps with
  | nil => rfl
  | cons p ps ih =>
    have e : prefixText (p :: ps) = p ++ '\n' :: prefixText ps := by simp [prefixText]
    rw [e, getLines_line p (h p List.mem_cons_self), ih (fun x hx => h x (List.mem_cons_of_mem _ hx))]
    rfl

/-- **Indexes that were built** are read with the prefixes with which the vocabulary was compressed, whatever files were there before. -/
theorem C86_built (compressed external : Bool) (ps : List Str) (h : ∀ p ∈ ps, '\n' ∉ p) (d : Disk) :
    readConfiguration (build compressed external ps d) = .ok (some (if compressed then ps else []), some external) := by
  cases compressed with
  | false => rfl
  | true => simp [readConfiguration, build, readPrefixes, Outcome.bind, C86_prefix_file ps h]

/-- **Converting an index that needs no conversion** keeps its configuration, if its vocabulary is compressed.  Missing: vocabularies that
are not compressed (`C86_uncompressed_violated`), and indexes that need the conversion (`C86_array_violated`,
`C86_created_violated`). -/
theorem C86_converted_partial (external literals : Bool) (ps ps' : List Str) (h : ∀ p ∈ ps, '\n' ∉ p) (d : Disk) :
    ∃ d', convert ps' literals (build true external ps d) = .ok d' ∧ readConfiguration d' = .ok (some ps, some external) :=
  ⟨build true external ps d, rfl, by simpa using C86_built true external ps h d⟩

/-- Disagreement: the converter fails for every index without compression of the vocabulary, unless an earlier build left a file with
prefixes; a server reads such an index. -/
theorem C86_uncompressed_violated (external literals : Bool) (ps ps' : List Str) :
    convert ps' literals (build false external ps ⟨none, none⟩) = .throw ∧
      readConfiguration (build false external ps ⟨none, none⟩) = .ok (some [], some external) := ⟨rfl, rfl⟩

/-- Disagreement: the converter writes the list of prefixes of an old index to the separate file, but leaves the list in the
configuration, so no server reads a converted index, whatever else is in its configuration. -/
theorem C86_array_violated (ps' l : List Str) (literals : Bool) (c : Conf) (hc : c.prefixes = some (.array l)) (t : Option Str) :
    ∃ d', convert ps' literals ⟨some c, t⟩ = .ok d' ∧ d'.prefixFile = some (prefixText l) ∧ readConfiguration d' = .throw := by
  refine ⟨⟨some c, some (prefixText l)⟩, ?_, rfl, ?_⟩
  · simp only [convert, hc]
  · simp only [readConfiguration, hc, readPrefixes, Outcome.bind]

/-- Disagreement: no server reads the configuration that the converter creates for an index without one; it has the same list, and no
locale. -/
theorem C86_created_violated (ps : List Str) (literals : Bool) (t : Option Str) :
    ∃ d' c, convert ps literals ⟨none, t⟩ = .ok d' ∧ d'.conf = some c ∧ c.prefixes = some (.array ps) ∧ c.locale = false ∧
      readConfiguration d' = .throw := ⟨_, _, rfl, rfl, rfl, rfl, rfl⟩

/-- Converting a second time what was converted from a list gives the same files. -/
theorem C86_again (ps ps' l : List Str) (literals literals' : Bool) (c : Conf) (hc : c.prefixes = some (.array l)) (t : Option Str) (d' : Disk)
    (h : convert ps literals ⟨some c, t⟩ = .ok d') : convert ps' literals' d' = .ok d' := by
  simp only [convert, hc] at h
  cases h
  simp only [convert, hc]

/-! Examples -/

def exPrefixes : List Str := ["<http://example.org/".toList, [], "\"".toList]

example : ∀ p ∈ exPrefixes, '\n' ∉ p := by decide

example : prefixText exPrefixes = "<http://example.org/\n\n\"\n".toList := by decide

example : (Conf.mk (some (.array exPrefixes)) (some true) false true).prefixes = some (.array exPrefixes) := rfl

example : readConfiguration (build true false exPrefixes ⟨none, some "old".toList⟩) = .ok (some exPrefixes, some false) := by decide

end Verif.Configuration
