import Verif.Spec.Conversions
/-
Specification of a documents file (docs/sparql_plus_text.md): a line for every document, with its largest record id, a tab and its text.
-/
namespace Verif.DocsDBSpec
open Verif.ConversionsSpec (natOf)

/-- A document: the digits of its largest record id, and its text. -/
structure Doc where
  digits : List Nat
  text : List Char
  deriving DecidableEq, Repr

/-- The largest record id. -/
def Doc.id (d : Doc) : Nat := natOf d.digits

/-- The line of a document. -/
def Doc.line (d : Doc) : List Char := d.digits.map (fun k => Char.ofNat (48 + k)) ++ '\t' :: d.text

/-- The documents file. -/
def file (docs : List Doc) : List Char := docs.flatMap fun d => d.line ++ ['\n']

/-- A documents file with increasing ids.  The sizes are within what fits into the computer. -/
structure Valid (docs : List Doc) : Prop where
  digits : ∀ d ∈ docs, ∀ k ∈ d.digits, k < 10
  text : ∀ d ∈ docs, '\n' ∉ d.text
  short : ∀ d ∈ docs, d.line.length + 1 < 1024 * 1024 * 100
  increasing : docs.Pairwise fun a b => a.id < b.id
  size : (docs.flatMap Doc.text).length + 8 * ((docs.getLast?.map Doc.id).getD 0 + 2) < 2 ^ 63

instance (docs : List Doc) : Decidable (Valid docs) :=
  decidable_of_iff ((∀ d ∈ docs, ∀ k ∈ d.digits, k < 10) ∧ (∀ d ∈ docs, '\n' ∉ d.text) ∧ (∀ d ∈ docs, d.line.length + 1 < 1024 * 1024 * 100) ∧
      (docs.Pairwise fun a b => a.id < b.id) ∧ (docs.flatMap Doc.text).length + 8 * ((docs.getLast?.map Doc.id).getD 0 + 2) < 2 ^ 63)
    ⟨fun ⟨a, b, c, d, e⟩ => ⟨a, b, c, d, e⟩, fun h => ⟨h.1, h.2, h.3, h.4, h.5⟩⟩

/-- The document that a record belongs to: the first one whose largest record id is not smaller. -/
def docOf (docs : List Doc) (id : Nat) : Option Doc := docs.find? fun d => id ≤ d.id

end Verif.DocsDBSpec
