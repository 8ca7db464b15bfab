import Verif.Model.Outcome
/-
Model of the configuration file of an index: what the index builder writes (/repo/src/index/Index.cpp:93-125, 1331-1335), what a
server reads (`readConfiguration`, Index.cpp:1338-1391), and what the converter for old indexes does with it
(`CompressVocabAndCreateConfigurationFile`, /repo/src/index/MetaDataConverter.cpp:175-233).

Simplifications: the keys "prefixes", "external-literals" and "ignore-case" and whether there is a complete "locale" are modelled; the keys
"prefixes-external" and "languages-internal" are not.  Failed checks and exceptions of the JSON library are `throw`.  Texts of JSON files
are not modelled (a file that was written is read as the same value).
-/
namespace Verif.Configuration

abbrev Str := List Char

/-- The kinds of values of the key "prefixes" -/
inductive Value where
  | bool (b : Bool)
  | array (l : List Str)
  | other
  deriving DecidableEq, Repr

/-- The configuration file -/
structure Conf where
  prefixes : Option Value
  external : Option Bool
  ignoreCase : Bool
  locale : Bool
  deriving DecidableEq, Repr

/-- The files of an index: configuration and prefixes -/
structure Disk where
  conf : Option Conf
  prefixFile : Option Str
  deriving DecidableEq, Repr

/-- The lines that `std::getline` returns; `cur` are the characters of the current line in reverse order. -/
def getLines (cur : Str) : Str → List Str
  | [] => if cur.isEmpty then [] else [cur.reverse]
  | c :: s => if c = '\n' then cur.reverse :: getLines [] s else getLines (c :: cur) s

/-- The loops that write prefixes, Index.cpp:110-112, MetaDataConverter.cpp:201-203 -/
def prefixText (ps : List Str) : Str := ps.flatMap fun p => p ++ ['\n']

/-- What the index builder leaves, Index.cpp:66, 99-125; `ps` is the result of `calculatePrefixes`.  The file with prefixes of an earlier
build is not removed. -/
def build (compressed external : Bool) (ps : List Str) (d : Disk) : Disk :=
  ⟨some ⟨some (.bool compressed), some external, false, true⟩, if compressed then some (prefixText ps) else d.prefixFile⟩

/-- The prefixes in `readConfiguration`, Index.cpp:1347-1359; `none` if they are not set.  A value that is no boolean is an exception of the
JSON library in line 1348. -/
def readPrefixes (d : Disk) (v : Option Value) : Outcome (Option (List Str)) :=
  match v with
  | none => .ok none
  | some (.bool false) => .ok (some [])
  | some (.bool true) =>
    match d.prefixFile with
    | none => .throw
    | some t => .ok (some (getLines [] t))
  | some _ => .throw

/-- `readConfiguration`, Index.cpp:1338-1391: the prefixes and whether literals are external, if this is set. -/
def readConfiguration (d : Disk) : Outcome (Option (List Str) × Option Bool) :=
  match d.conf with
  | none => .throw
  | some c => (readPrefixes d c.prefixes).bind fun ps =>
    if c.ignoreCase then .throw else if c.locale then .ok (ps, c.external) else .throw

/-- `CompressVocabAndCreateConfigurationFile`, MetaDataConverter.cpp:175-233, followed by the renaming of the files with the suffix
".converted" that its output asks for; `ps` is the result of `calculatePrefixes`, `literals` whether there is an external vocabulary. -/
def convert (ps : List Str) (literals : Bool) (d : Disk) : Outcome Disk :=
  match d.conf with
  | none => .ok ⟨some ⟨some (.array ps), some literals, false, false⟩, d.prefixFile⟩
  | some c =>
    match c.prefixes with
    | none => .throw
    | some (.bool _) => if d.prefixFile.isSome then .ok d else .throw
    | some (.array l) => .ok ⟨some c, some (prefixText l)⟩
    | some .other => .throw

end Verif.Configuration
