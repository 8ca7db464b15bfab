import Verif.Lemmas.ServerUtf8
import Verif.Lemmas.Http
/-
Reading what the server wrote: strings of a JSON text and responses.
-/
namespace Verif.Server
open ServerSpec StringUtils

theorem ofNat_toNat (c : Char) : Char.ofNat c.toNat = c := Char.ofNat_toNat c

theorem readChars_plain (f : Nat) (c : Char) (r : Str) (h1 : 32 ≤ c.toNat) (h2 : c ≠ '"') (h3 : c ≠ '\\') :
    readChars (f + 1) (c :: r) = (readChars f r).map fun p => (c :: p.1, p.2) := by
  rw [readChars.eq_def]
  split
  · omega
  · rename_i he; cases he; exact absurd rfl h2
  · rename_i he; cases he; exact absurd rfl h3
  · rename_i he; cases he; exact absurd rfl h3
  · rename_i n c' r' _ _ _ he hf
    cases he; cases hf
    rw [if_neg (by
      rintro (h | h)
      · omega
      · exact h3 h)]
  · rename_i he; cases he

theorem readChars_simple (f : Nat) (e c : Char) (r : Str) (he : e ≠ 'u') (hf : simpleEscape.find? (fun p => p.1 == e) = some (e, c)) :
    readChars (f + 1) ('\\' :: e :: r) = (readChars f r).map fun p => (c :: p.1, p.2) := by
  rw [readChars.eq_def]
  split
  · omega
  · rename_i h; cases h
  · rename_i h; cases h; exact absurd rfl he
  · rename_i h1 h2
    cases h1; cases h2
    rw [hf]
  · rename_i n c' r' _ _ h0 h1 h2
    cases h1; cases h2
    exact absurd rfl (h0 _ _ rfl)
  · rename_i h; cases h

theorem readChars_hex (f : Nat) (n : Nat) (r : Str) (hn : n < 32) :
    readChars (f + 1) ('\\' :: 'u' :: hexLower (n / 4096 % 16) :: hexLower (n / 256 % 16) :: hexLower (n / 16 % 16) ::
      hexLower (n % 16) :: r) = (readChars f r).map fun p => (Char.ofNat n :: p.1, p.2) := by
  have hx : ∀ k < 16, hexOf (hexLower k) = some k := by decide
  rw [readChars]
  rw [hx _ (by omega), hx _ (by omega), hx _ (by omega), hx _ (by omega)]
  simp only
  rw [show ((n / 4096 % 16 * 16 + n / 256 % 16) * 16 + n / 16 % 16) * 16 + n % 16 = n by omega, if_pos (by omega)]

/-- One code point is read back. -/
theorem read_step {n : Nat} {w : Str} (hw : w.map Char.toNat = utf8 n) (f : Nat) (r : Str) :
    readChars (f + w.length) (escapes n w ++ r) = (readChars f r).map fun p => (w ++ p.1, p.2) := by
  by_cases h1 : n < 128
  · have h1' : n < 0x80 := h1
    unfold utf8 at hw
    rw [if_pos h1'] at hw
    obtain ⟨c, rfl, hc⟩ := List.map_eq_singleton_iff.mp hw
    have hcn : c = Char.ofNat n := by rw [← hc, ofNat_toNat]
    unfold escapes
    rw [if_pos h1]
    simp only [List.flatMap_cons, List.flatMap_nil, List.append_nil, List.length_singleton]
    have main : readChars (f + 1) (escape n c ++ r) = (readChars f r).map fun p => (c :: p.1, p.2) := by
      unfold escape
      by_cases e : n = 0x08
      · rw [if_pos e, hcn, e]; exact readChars_simple f 'b' _ r (by decide) (by decide)
      rw [if_neg e]
      by_cases e : n = 0x09
      · rw [if_pos e, hcn, e]; exact readChars_simple f 't' _ r (by decide) (by decide)
      rw [if_neg e]
      by_cases e : n = 0x0A
      · rw [if_pos e, hcn, e]; exact readChars_simple f 'n' _ r (by decide) (by decide)
      rw [if_neg e]
      by_cases e : n = 0x0C
      · rw [if_pos e, hcn, e]; exact readChars_simple f 'f' _ r (by decide) (by decide)
      rw [if_neg e]
      by_cases e : n = 0x0D
      · rw [if_pos e, hcn, e]; exact readChars_simple f 'r' _ r (by decide) (by decide)
      rw [if_neg e]
      by_cases e : n = 0x22
      · rw [if_pos e, hcn, e]; exact readChars_simple f '"' _ r (by decide) (by decide)
      rw [if_neg e]
      by_cases e' : n = 0x5C
      · rw [if_pos e', hcn, e']; exact readChars_simple f '\\' _ r (by decide) (by decide)
      rw [if_neg e']
      by_cases e2 : n ≤ 0x1F
      · rw [if_pos e2, hcn]
        exact readChars_hex f n r (by omega)
      · rw [if_neg e2]
        refine readChars_plain f c r (by omega) ?_ ?_
        · rintro rfl; exact e hc.symm
        · rintro rfl; exact e' hc.symm
    exact main
  · unfold escapes
    rw [if_neg h1]
    have hbig : ∀ c ∈ w, 128 ≤ c.toNat := by
      intro c hc
      have : c.toNat ∈ utf8 n := by rw [← hw]; exact List.mem_map_of_mem hc
      unfold utf8 at this
      rw [if_neg (by omega)] at this
      by_cases h2 : n < 0x800
      · rw [if_pos h2] at this
        simp only [List.mem_cons, List.not_mem_nil, or_false] at this
        omega
      rw [if_neg h2] at this
      by_cases h3 : n < 0x10000
      · rw [if_pos h3] at this
        simp only [List.mem_cons, List.not_mem_nil, or_false] at this
        omega
      rw [if_neg h3] at this
      simp only [List.mem_cons, List.not_mem_nil, or_false] at this
      omega
    clear hw
    induction w with
    | nil => simp
    | cons c w ih =>
      have hc := hbig c (List.mem_cons_self ..)
      rw [List.length_cons, ← Nat.add_assoc, List.cons_append, readChars_plain _ c _ (by omega) (by rintro rfl; exact absurd hc (by decide))
        (by rintro rfl; exact absurd hc (by decide)), ih (fun d hd => hbig d (List.mem_cons_of_mem _ hd))]
      simp [Option.map_map, Function.comp_def]

theorem escapes_length {n : Nat} {w : Str} : w.length ≤ (escapes n w).length := by
  unfold escapes
  by_cases h : n < 128
  · rw [if_pos h]
    have : ∀ c, 1 ≤ (escape n c).length := by
      intro c
      unfold escape
      repeat' split
      all_goals simp
    induction w with
    | nil => simp
    | cons c w ih =>
      simp only [List.flatMap_cons, List.length_append, List.length_cons]
      have := this c
      omega
  · rw [if_neg h]

/-- A string that was written is read back. -/
theorem read_pieces : ∀ (ws : List (Nat × Str)), (∀ p ∈ ws, Scalar p.1 ∧ p.2.map Char.toNat = utf8 p.1) → ∀ (f : Nat) (r : Str),
    readChars (f + 1 + (ws.flatMap Prod.snd).length) ((ws.flatMap fun p => escapes p.1 p.2) ++ '"' :: r) =
      some (ws.flatMap Prod.snd, r) := by
  intro ws
  induction ws with
  | nil => intro _ f r; rw [List.flatMap_nil, List.flatMap_nil]; simp [readChars]
  | cons p ws ih =>
    intro h f r
    rw [List.flatMap_cons, List.flatMap_cons, List.length_append, List.append_assoc,
      show f + 1 + (p.2.length + (ws.flatMap Prod.snd).length) = (f + 1 + (ws.flatMap Prod.snd).length) + p.2.length by omega,
      read_step (h p (List.mem_cons_self ..)).2, ih (fun q hq => h q (List.mem_cons_of_mem _ hq))]
    rfl

theorem pieces_length (ws : List (Nat × Str)) : (ws.flatMap Prod.snd).length ≤ (ws.flatMap fun p => escapes p.1 p.2).length := by
  induction ws with
  | nil => simp
  | cons p ws ih =>
    simp only [List.flatMap_cons, List.length_append]
    have := escapes_length (n := p.1) (w := p.2)
    omega

theorem dumpString_read {s : Str} (h : Utf8 s) : ∃ t, dumpString s = .ok t ∧ ∀ r, readString (t ++ r) = some (s, r) := by
  obtain ⟨cs, h1, h2⟩ := h
  obtain ⟨ws, e1, e2, e3⟩ := dump_ok cs s h1 h2 0 []
  refine ⟨'"' :: ((ws.flatMap fun p => escapes p.1 p.2) ++ ['"']), ?_, ?_⟩
  · rw [dumpString, e3]; simp
  · intro r
    simp only [List.cons_append, List.append_assoc, readString, List.nil_append]
    have hl := pieces_length ws
    have : ((ws.flatMap fun p => escapes p.1 p.2) ++ '"' :: r).length + 1 =
        (((ws.flatMap fun p => escapes p.1 p.2) ++ '"' :: r).length - (ws.flatMap Prod.snd).length) + 1 + (ws.flatMap Prod.snd).length := by
      simp only [List.length_append, List.length_cons]; omega
    rw [this, read_pieces ws e2, ← e1]

theorem dumpString_utf8 {s : Str} (hb : ∀ c ∈ s, c.toNat < 256) : (∃ t, dumpString s = .ok t) ↔ Utf8 s := by
  constructor
  · rintro ⟨t, h⟩
    unfold dumpString at h
    cases hd : dumpLoop 0 0 [] s with
    | ok t' => exact dump_utf8 s.length s (Nat.le_refl _) hb 0 [] t' hd
    | throw w => rw [hd] at h; cases h
    | ub => rw [hd] at h; cases h
    | diverge => rw [hd] at h; cases h
  · intro h
    obtain ⟨t, ht, _⟩ := dumpString_read h
    exact ⟨t, ht⟩

theorem dumpLoop_cases : ∀ (s : Str) (st cp : Nat) (out : Str), (∃ t, dumpLoop st cp out s = .ok t) ∨ dumpLoop st cp out s = .throw notUtf8 := by
  intro s
  induction s with
  | nil =>
    intro st cp out
    rw [dumpLoop]
    by_cases h : st = 0
    · rw [if_pos h]; exact .inl ⟨_, rfl⟩
    · rw [if_neg h]; exact .inr rfl
  | cons c s ih =>
    intro st cp out
    rw [dumpLoop]
    by_cases h : (decode st cp c.toNat).1 = 0
    · rw [if_pos h]; exact ih _ _ _
    · rw [if_neg h]
      by_cases h2 : (decode st cp c.toNat).1 = 1
      · rw [if_pos h2]; exact .inr rfl
      · rw [if_neg h2]; exact ih _ _ _

theorem dumpString_throw {s : Str} (hb : ∀ c ∈ s, c.toNat < 256) (h : ¬ Utf8 s) : dumpString s = .throw notUtf8 := by
  rcases dumpLoop_cases s 0 0 [] with ⟨t, ht⟩ | ht
  · exact absurd ((dumpString_utf8 hb).mp ⟨_, by rw [dumpString, ht]; rfl⟩) h
  · rw [dumpString, ht]; rfl

theorem utf8_of_ascii {s : Str} (h : Ascii s) : Utf8 s := by
  refine ⟨s.map Char.toNat, ?_, ?_⟩
  · intro n hn
    obtain ⟨c, hc, rfl⟩ := List.mem_map.mp hn
    have := h c hc
    unfold Scalar; omega
  · induction s with
    | nil => rfl
    | cons c s ih =>
      have hc := h c (List.mem_cons_self ..)
      rw [List.map_cons, List.flatMap_cons, ← ih fun d hd => h d (List.mem_cons_of_mem _ hd), utf8, if_pos hc]
      rfl

theorem utf8_ne_zero {n : Nat} (hn : n ≠ 0) : ∀ b ∈ utf8 n, b ≠ 0 := by
  intro b hb
  unfold utf8 at hb
  by_cases h1 : n < 0x80
  · rw [if_pos h1] at hb
    simp only [List.mem_singleton] at hb; omega
  rw [if_neg h1] at hb
  by_cases h2 : n < 0x800
  · rw [if_pos h2] at hb
    simp only [List.mem_cons, List.not_mem_nil, or_false] at hb; omega
  rw [if_neg h2] at hb
  by_cases h3 : n < 0x10000
  · rw [if_pos h3] at hb
    simp only [List.mem_cons, List.not_mem_nil, or_false] at hb; omega
  rw [if_neg h3] at hb
  simp only [List.mem_cons, List.not_mem_nil, or_false] at hb; omega

theorem takeWhile_append_all {α : Type} {p : α → Bool} {a b : List α} (h : ∀ x ∈ a, p x = true) :
    (a ++ b).takeWhile p = a ++ b.takeWhile p := by
  induction a with
  | nil => rfl
  | cons x a ih =>
    rw [List.cons_append, List.takeWhile_cons, if_pos (h x (List.mem_cons_self ..)), ih fun y hy => h y (List.mem_cons_of_mem _ hy)]
    rfl

theorem takeWhile_flatMap : ∀ cs : List Nat, (cs.flatMap utf8).takeWhile (· != 0) = (cs.takeWhile (· != 0)).flatMap utf8 := by
  intro cs
  induction cs with
  | nil => rfl
  | cons n cs ih =>
    by_cases hn : n = 0
    · subst hn; rfl
    · rw [List.flatMap_cons, takeWhile_append_all (fun b hb => by simpa using utf8_ne_zero hn b hb), ih, List.takeWhile_cons, if_pos (by simpa using hn),
        List.flatMap_cons]

/-- The part of a UTF-8 string before the first zero byte is UTF-8. -/
theorem utf8_cut {s : Str} (h : Utf8 s) : Utf8 (s.takeWhile (· != '\x00')) := by
  obtain ⟨cs, h1, h2⟩ := h
  refine ⟨cs.takeWhile (· != 0), fun c hc => h1 c (List.takeWhile_sublist _ |>.subset hc), ?_⟩
  have : (s.takeWhile (· != '\x00')).map Char.toNat = (s.map Char.toNat).takeWhile (· != 0) := by
    clear h2
    induction s with
    | nil => rfl
    | cons c s ih =>
      rw [List.map_cons, List.takeWhile_cons, List.takeWhile_cons]
      by_cases hc : c = '\x00'
      · subst hc; rfl
      · have : c.toNat ≠ 0 := by
          intro h0
          apply hc
          rw [← ofNat_toNat c, h0]
        rw [if_pos (by simpa using hc), if_pos (by simpa using this), List.map_cons, ih]
  rw [this, h2, takeWhile_flatMap]

/-! ### Responses -/

theorem readNat_decimal (n : Nat) : readNat (decimal n) = some n := by
  unfold readNat decimal
  have hd : ∀ c ∈ Nat.toDigits 10 n, c.isDigit = true := fun c => Nat.isDigit_of_mem_toDigits (by omega) (by omega)
  rw [if_pos ⟨List.length_pos_iff.mp Nat.length_toDigits_pos, List.all_eq_true.mpr hd⟩]
  have := Nat.ofDigitChars_ten_toDigits (n := n)
  rw [Nat.ofDigitChars_eq_foldl] at this
  exact congrArg some this

theorem decimal_digits (n : Nat) : ∀ c ∈ decimal n, c.isDigit = true := fun _ => Nat.isDigit_of_mem_toDigits (by omega) (by omega)

theorem readHead_char {line r : Str} {c : Char} (h : c ≠ '\r') : readHead line (c :: r) = readHead (line ++ [c]) r := by
  rw [readHead]
  rintro _ rfl; exact absurd rfl h

theorem readHead_chars : ∀ (l line r : Str), '\r' ∉ l → readHead line (l ++ r) = readHead (line ++ l) r := by
  intro l
  induction l with
  | nil => intro line r _; simp
  | cons c l ih =>
    intro line r h
    rw [List.cons_append, readHead_char (by rintro rfl; exact h (List.mem_cons_self ..)), ih _ _ fun hm => h (List.mem_cons_of_mem _ hm)]
    simp

theorem readHead_lines : ∀ (ls : List Str) (body : Str), (∀ l ∈ ls, '\r' ∉ l ∧ l ≠ []) →
    readHead [] ((ls.flatMap fun l => l ++ ['\r', '\n']) ++ ('\r' :: '\n' :: body)) = some (ls, body) := by
  intro ls
  induction ls with
  | nil => intro body _; simp [readHead]
  | cons l ls ih =>
    intro body h
    have hl := h l (List.mem_cons_self ..)
    rw [List.flatMap_cons, List.append_assoc, List.append_assoc, readHead_chars _ _ _ hl.1]
    simp only [List.nil_append, List.cons_append]
    rw [readHead, if_neg hl.2, ih body fun m hm => h m (List.mem_cons_of_mem _ hm)]
    rfl

theorem readField_eq {name v : Str} (hn : ':' ∉ name) (hv : v.head? ≠ some ' ') : readField (name ++ (':' :: ' ' :: v)) = (name, v) := by
  have h1 : ∀ c ∈ name, (c != ':') = true := by
    intro c hc
    simp only [bne_iff_ne]
    rintro rfl; exact hn hc
  have h2 : (name ++ (':' :: ' ' :: v)).takeWhile (· != ':') = name := by
    rw [takeWhile_append_all h1]; simp
  have h3 : (name ++ (':' :: ' ' :: v)).dropWhile (· != ':') = ':' :: ' ' :: v := by
    clear h2 hn
    induction name with
    | nil => simp
    | cons c n ih =>
      rw [List.cons_append, List.dropWhile_cons, if_pos (h1 c (List.mem_cons_self ..)), ih fun d hd => h1 d (List.mem_cons_of_mem _ hd)]
  unfold readField
  rw [h2, h3]
  simp only [List.drop_succ_cons, List.drop_zero, List.dropWhile_cons, beq_self_eq_true, if_true, Prod.mk.injEq, true_and]
  cases v with
  | nil => rfl
  | cons c v =>
    simp only [List.head?_cons, ne_eq, Option.some.injEq] at hv
    rw [List.dropWhile_cons, if_neg (by simpa using hv)]

/-- A response with a first line, fields and a body. -/
theorem readResponse_eq (first : Str) (fields : List (Str × Str)) (body : Str) (status : Nat) (hf : '\r' ∉ first ∧ first ≠ [])
    (hs : readNat (((first.dropWhile (· != ' ')).drop 1).takeWhile (· != ' ')) = some status)
    (hfs : ∀ p ∈ fields, ':' ∉ p.1 ∧ '\r' ∉ p.1 ∧ '\r' ∉ p.2 ∧ p.2.head? ≠ some ' ')
    (hl : (fields.find? fun p => p.1 == "Content-Length".toList) = some ("Content-Length".toList, decimal body.length)) :
    readResponse (((first :: fields.map fun p => p.1 ++ (':' :: ' ' :: p.2)).flatMap fun l => l ++ ['\r', '\n']) ++ ('\r' :: '\n' :: body)) =
      some ⟨status, fields, body⟩ := by
  unfold readResponse
  rw [readHead_lines _ _ (by
    intro l hl
    rcases List.mem_cons.mp hl with rfl | hl
    · exact hf
    · obtain ⟨p, hp, rfl⟩ := List.mem_map.mp hl
      have := hfs p hp
      refine ⟨?_, by simp⟩
      simp only [List.mem_append, List.mem_cons]
      rintro (h | h | h | h)
      · exact this.2.1 h
      · exact absurd h (by decide)
      · exact absurd h (by decide)
      · exact this.2.2.1 h)]
  have hm : (fields.map fun p => p.1 ++ (':' :: ' ' :: p.2)).map readField = fields := by
    rw [List.map_map]
    conv => rhs; rw [← List.map_id fields]
    apply List.map_congr_left
    intro p hp
    exact readField_eq (hfs p hp).1 (hfs p hp).2.2.2
  simp only [hm, hs, hl, Option.bind_some, readNat_decimal]
  rw [if_pos (Nat.le_refl _), List.take_length]

end Verif.Server
