import Verif.Lemmas.TurtleStream
import Verif.Props.C62_Turtle
/-
C63: a Turtle file gives the triples of its document, however it is cut into blocks.
-/
namespace Verif.Turtle
open Verif.TurtleSpec
open Verif.Spec

theorem byteSize_eq (t : Str) : byteSize t = t.utf8Encode.size := by simp [byteSize, List.utf8Encode]

/-- C63, partial: from a file that is read in blocks exactly the triples of its document are returned, each as often as it is
stated, for every size of the blocks and of the batches.  What is missing: the documents that C62 leaves out, documents that
give a prefix a second meaning, and cuts directly after a dot inside a name or inside a character. -/
theorem C63_blocks_partial (hex : Str → Str) (d : List Stmt) (first : Str) (blocks : List Str) (ts : List Triple)
    (hok : ∀ st ∈ d, st.Ok hex) (hcons : Consistent d)
    (hl : Layout Sep (d.flatMap Stmt.toks) (first ++ blocks.flatten)) (hd : den anonName d = some ts)
    (hcut : Cuts first blocks) (hne : ∀ b ∈ blocks, b ≠ []) (fuel min max loops n : Nat)
    (hf : 3 * (first ++ blocks.flatten).length < fuel) (hmax : (first ++ blocks.flatten).utf8Encode.size ≤ max) (hmin : 0 < min)
    (hloops : (blocks.length + 1) * ((first ++ blocks.flatten).length + 1) < loops) (hn : ts.length < n) :
    ∃ out, readAll (streamGetLine (escapes hex) fuel loops min max) n (Stream.init (first :: blocks)) = .ok out ∧
      out.Perm ts :=
  stream_spec d first blocks ts hok hcons hl hd hcut hne hf (by rwa [byteSize_eq]) hmin hloops hn

/-- C63, partial: the same for a file in a single block; here prefixes may be given a second meaning. -/
theorem C63_single_block_partial (hex : Str → Str) (d : List Stmt) (text : Str) (ts : List Triple)
    (hok : ∀ st ∈ d, st.Ok hex) (hl : Layout Sep (d.flatMap Stmt.toks) text) (hd : den anonName d = some ts)
    (fuel min max loops n : Nat) (hf : 3 * text.length < fuel) (hmin : 0 < min) (hloops : text.length < loops)
    (hn : ts.length < n) :
    ∃ out, readAll (streamGetLine (escapes hex) fuel loops min max) n (Stream.init [text]) = .ok out ∧ out.Perm ts :=
  single_spec d text ts hok hl hd hf hmin hloops hn

/-- C63: a statement that can be read from the beginning of a text is read in the same way from the whole text, for all texts
and wherever the beginning ends, unless it ends with an open dot. -/
theorem C63_statements_are_stable (hex : Str → Str) (s s' : State) (r : Str) (fuel : Nat) (hcut : CutOk s.input r)
    (h : statement (escapes hex) fuel s = .ok true s') :
    statement (escapes hex) fuel { s with input := s.input ++ r } = .ok true { s' with input := s'.input ++ r } := by
  have := statement_same (cleanCut hcut) fuel (List.suffix_refl _) (.inr ⟨s', h⟩)
  rw [h] at this
  exact this

/-- C63: for all texts and cuts, every call of `getLine` ends, and without undefined behaviour. -/
theorem C63_terminates (hex : Str → Str) (x : Stream) (L fuel loops min max : Nat)
    (hL : x.st.input.length + x.blocks.flatten.length ≤ L) (hf : 3 * L < fuel)
    (hl : (x.blocks.length + 1) * (L + 1) < loops) :
    streamGetLine (escapes hex) fuel loops min max x ≠ .ub ∧ streamGetLine (escapes hex) fuel loops min max x ≠ .diverge :=
  streamGetLine_safe min max x hL hf hl

/-- C63 fails for files that are mapped into memory: only the first statement is read. -/
theorem C63_mmap_first_statement (hex : Str → Str) (st : Stmt) (d : List Stmt) (text : Str) (env : Env) (ts : List Triple)
    (k : Nat) (hok : st.Ok hex) (hl : Layout Sep ((st :: d).flatMap Stmt.toks) text)
    (hd : st.den anonName (fun _ => none) 0 = some (env, ts, k)) (fuel loops min n : Nat) (hf : 3 * text.length < fuel)
    (hmin : 0 < min) (hloops : 0 < loops) (hn : ts.length < n) :
    readAll (mmapGetLine (escapes hex) fuel loops min) n (Stream.init [text]) = .ok ts.reverse :=
  mmap_first hok (by simpa using hl) hd hf hmin hloops hn

/-- C63 fails for files that are mapped into memory and have no statements: reading them does not end. -/
theorem C63_mmap_empty_diverges (hex : Str → Str) (text : Str) (hl : Layout Sep [] text) (fuel loops min n : Nat)
    (hf : 0 < fuel) (hmin : 0 < min) :
    readAll (mmapGetLine (escapes hex) fuel loops min) n (Stream.init [text]) = .diverge := by
  obtain ⟨f, rfl⟩ : ∃ f, fuel = f + 1 := ⟨fuel - 1, by omega⟩
  cases n with
  | zero => rfl
  | succ n => rw [readAll, mmapGetLine, if_pos (by rfl), mmapFill_empty hmin loops _ rfl rfl hl]

/-! ### Files -/

/-- `@prefix ex: <n/> . ex:a ex:p ex:b . ex:a ex:p ex:c .` -/
def file : List Stmt :=
  [declaration, .triples (.iri (ex ['a'])) (.one (.iri (ex ['p'])) (.one (.node (.iri (ex ['b'])))) 0),
   .triples (.iri (ex ['a'])) (.one (.iri (ex ['p'])) (.one (.node (.iri (ex ['c'])))) 0)]

/-- The first 27 characters: the second statement without its last word and the dot. -/
theorem file_text : text file = (text file).take 27 ++ [(text file).drop 27].flatten := by simp

/-- The hypotheses of `C63_blocks_partial` are met by a file whose first block ends inside a statement. -/
example (hex : Str → Str) : (∀ st ∈ file, st.Ok hex) ∧ Consistent file ∧
    Layout Sep (file.flatMap Stmt.toks) ((text file).take 27 ++ [(text file).drop 27].flatten) ∧
    den anonName file = some [(['<', 'n', '/', 'a', '>'], ['<', 'n', '/', 'p', '>'], ['<', 'n', '/', 'b', '>']),
      (['<', 'n', '/', 'a', '>'], ['<', 'n', '/', 'p', '>'], ['<', 'n', '/', 'c', '>'])] ∧
    Cuts ((text file).take 27) [(text file).drop 27] ∧ (∀ b ∈ [(text file).drop 27], b ≠ []) ∧
    (text file).take 27 = ['@', 'p', 'r', 'e', 'f', 'i', 'x', ' ', 'e', 'x', ':', ' ', '<', 'n', '/', '>', ' ', '.', ' ',
      'e', 'x', ':', 'a', ' ', 'e', 'x', ':'] := by
  have hp : Place.ok ['e', 'x'] .predicate := by simp [Place.ok]
  have ho : Place.ok ['e', 'x'] .object := by simp [Place.ok, Exponential]; decide
  refine ⟨?_, ?_, ?_, by decide, ?_, by decide, by decide⟩
  · intro st hst
    simp only [file, List.mem_cons, List.not_mem_nil, or_false] at hst
    rcases hst with rfl | rfl | rfl
    · exact declaration_ok hex
    all_goals
      exact ⟨ex_ok (hex := hex) (by simp [Place.ok]) (by decide), ex_ok (hex := hex) hp (by decide),
        ex_ok (hex := hex) ho (by decide)⟩
  · intro q q' p t t' v v' h1 h2
    simp only [file, declaration, List.mem_cons, List.not_mem_nil, or_false, reduceCtorEq, Stmt.pre.injEq] at h1 h2
    rw [h1.2.2.2, h2.2.2.2]
  · rw [← file_text]
    exact plain_layout sep_nil ⟨[' '], [], [], rfl, by simp [blanks, blank], .inl rfl, by simp [blanks]⟩ _
  · refine ⟨.inl ?_, trivial⟩
    rintro ⟨v, p, h, hp⟩
    have hr := congrArg List.reverse h
    rw [show ((text file).take 27).reverse = ':' :: 'x' :: 'e' :: ' ' :: ((text file).take 23).reverse from by decide] at hr
    rcases hp with rfl | rfl | ⟨c, rfl⟩ | rfl <;> simp at hr

/-- The hypotheses of `C63_mmap_first_statement` are met by the same file, of which no triple is read. -/
example (hex : Str → Str) (fuel : Nat) (hf : 3 * (text file).length < fuel) :
    readAll (mmapGetLine (escapes hex) fuel 1 1) 1 (Stream.init [text file]) = .ok [] :=
  C63_mmap_first_statement hex declaration file.tail (text file) _ [] 0 (declaration_ok hex)
    (plain_layout sep_nil ⟨[' '], [], [], rfl, by simp [blanks, blank], .inl rfl, by simp [blanks]⟩ _) rfl fuel 1 1 1 hf
    (by decide) (by decide) (by decide)

/-! ### Files that are not read as they should be -/

/-- The triples that are returned; `none` if an exception is thrown. -/
def returned (min : Nat) (blocks : List Str) : Option (List Triple) :=
  match readAll (streamGetLine (escapes fun _ => []) 80 80 min 1000) 10 (Stream.init blocks) with
  | .ok ts => some ts
  | _ => none

/-- The same, to be evaluated. -/
def returnedF (min : Nat) (blocks : List Str) : Option (List Triple) :=
  match readAll (streamGetLine (escapesF fun _ => []) 80 80 min 1000) 10 (Stream.init blocks) with
  | .ok ts => some ts
  | _ => none

theorem returnedF_eq (min : Nat) (blocks : List Str) : returnedF min blocks = returned min blocks := by
  rw [returnedF, returned, escapesF_eq]

/-- `@prefix ex: <n/> . <s> <p> <o> , <o> . <s> <p> ex:o . @prefix ex: <m/> . <s> <p> ex:o .` -/
def redefined : List Stmt :=
  [declaration, .triples (.iri (ref 's')) (.one (.iri (ref 'p')) (.more (.node (.iri (ref 'o'))) (.one (.node (.iri (ref 'o'))))) 0),
   about (.node (.iri (ex ['o']))), .pre false ['e', 'x'] ['m', '/'] ['m', '/'], about (.node (.iri (ex ['o'])))]

def spn : Triple := (['<', 's', '>'], ['<', 'p', '>'], ['<', 'n', '/', 'o', '>'])
def spm : Triple := (['<', 's', '>'], ['<', 'p', '>'], ['<', 'm', '/', 'o', '>'])

/-- C63 fails when a prefix is given a second meaning: a batch that is read again after the next block has arrived uses the
later meaning for its earlier statements.  In a single block all is well. -/
theorem C63_redefined_prefix :
    den anonName redefined = some [spo, spo, spn, spm] ∧
    returned 2 [text redefined] = some [spo, spo, spm, spn] ∧
    returned 2 [(text redefined).take 75, (text redefined).drop 75] = some [spo, spo, spm, spm] :=
  ⟨by decide, by rw [← returnedF_eq]; decide +kernel, by rw [← returnedF_eq]; decide +kernel⟩

/-- `@prefix ex: <n/> . <s> <p> ex:o.o . <s> <p> <o> .` -/
def dotted' : List Stmt := [declaration, about (.node (.iri (ex ['o', '.', 'o']))), simple]

/-- C63 fails when a block ends after a dot in a name and a batch ends there: the name is cut, and the rest of the file is not
read. -/
theorem C63_cut_after_dot :
    den anonName dotted' = some [(['<', 's', '>'], ['<', 'p', '>'], ['<', 'n', '/', 'o', '.', 'o', '>']), spo] ∧
    returned 1 [text dotted'] = some [(['<', 's', '>'], ['<', 'p', '>'], ['<', 'n', '/', 'o', '.', 'o', '>']), spo] ∧
    (text dotted').take 32 = text [declaration] ++ ['<', 's', '>', ' ', '<', 'p', '>', ' ', 'e', 'x', ':', 'o', '.'] ∧
    returned 1 [(text dotted').take 32, (text dotted').drop 32] = some [spn] :=
  ⟨by decide, by rw [← returnedF_eq]; decide +kernel, by decide, by rw [← returnedF_eq]; decide +kernel⟩

/-- C63: what cannot be read is not always reported: here everything behind a closing parenthesis is lost. -/
theorem C63_rest_is_dropped (min : Nat) (hmin : min = 1 ∨ min = 2) :
    returned min [text [simple] ++ [')', ' '] ++ text [simple, simple]] = some [spo] := by
  rcases hmin with rfl | rfl <;> rw [← returnedF_eq] <;> decide +kernel

/-- C63 fails for files with three lines of comments between a statement and a directive: the rest is lost. -/
theorem C63_comments_end_the_file :
    returned 2 [text [simple] ++ ['#', '\n', '#', '\n', '#', '\n'] ++ text [declaration, simple]] = some [spo] := by
  rw [← returnedF_eq]; decide +kernel

end Verif.Turtle
