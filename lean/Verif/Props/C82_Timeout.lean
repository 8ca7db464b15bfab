import Verif.Spec.Timeout
import Verif.Lemmas.Filter
/-
C82: A query is aborted because of its time limit exactly when the limit has passed.
-/
namespace Verif.Timeout
open Spec

/-- The state of the timer after some uses with readings `l`, if it was started at `s`. -/
def After (m : Int) (s : TimeVal) (l : List (TimeVal × TimeVal)) (T : TimeoutTimer) : Prop :=
  T.limit = m ∧ T.unlimited = false ∧ T.timer.running = true ∧ T.timer.usecs - micro T.timer.tstart = -micro s - lost l

theorem After.start (m : Int) (s : TimeVal) : After m s [] ((TimeoutTimer.fromMicroseconds m).start s) := by
  simp [After, TimeoutTimer.fromMicroseconds, TimeoutTimer.start, Timer.start, lost]

theorem lost_append (l l' : List (TimeVal × TimeVal)) : lost (l ++ l') = lost l + lost l' := by simp [lost]

theorem lost_one (a b : TimeVal) : lost [(a, b)] = micro b - micro a := by simp [lost]

theorem After.next {m : Int} {s : TimeVal} {l : List (TimeVal × TimeVal)} {T : TimeoutTimer} (h : After m s l T) (a b : TimeVal) :
    After m s (l ++ [(a, b)]) { T with timer := if T.timer.running then (T.timer.stop a).cont b else T.timer.stop a } := by
  obtain ⟨h1, h2, h3, h4⟩ := h
  refine ⟨h1, h2, ?_, ?_⟩
  · simp [h3, Timer.stop, Timer.cont]
  · rw [lost_append, lost_one]
    simp only [h3, Timer.stop, Timer.cont, if_true, micro] at h4 ⊢
    omega

theorem After.answer {m : Int} {s : TimeVal} {l : List (TimeVal × TimeVal)} {T : TimeoutTimer} (h : After m s l T) (a b : TimeVal) :
    (T.hasTimedOut a b).1 = true ↔ micro a - micro s - lost l > m := by
  obtain ⟨h1, h2, h3, h4⟩ := h
  simp only [TimeoutTimer.hasTimedOut, h2, Timer.stop, h3, if_true, h1, micro] at h4 ⊢
  simp only [Bool.false_eq_true, if_false, decide_eq_true_eq]
  omega

theorem After.hasTimedOut {m : Int} {s : TimeVal} {l : List (TimeVal × TimeVal)} {T : TimeoutTimer} (h : After m s l T) (a b : TimeVal) :
    After m s (l ++ [(a, b)]) (T.hasTimedOut a b).2 := by
  have := h.next a b
  simpa only [TimeoutTimer.hasTimedOut, h.2.1, Bool.false_eq_true, if_false] using this

theorem After.remaining {m : Int} {s : TimeVal} {l : List (TimeVal × TimeVal)} {T : TimeoutTimer} (h : After m s l T) (a b : TimeVal) :
    After m s (l ++ [(a, b)]) (T.remaining a b).2 := by
  have := h.next a b
  simpa only [TimeoutTimer.remaining, h.2.1, Bool.false_eq_true, if_false] using this

theorem uses_append (T : TimeoutTimer) (l l' : List Use) : uses T (l ++ l') = (uses T l).bind fun T' => uses T' l' := by
  induction l generalizing T with
  | nil => rfl
  | cons u l ih =>
    cases u with
    | check a b =>
      simp only [List.cons_append, uses, Outcome.bind_eq]
      cases T.check a b <;> simp [ih]
    | remaining a b => simpa [uses] using ih _

theorem After.uses {m : Int} {s : TimeVal} (us : List Use) {l : List (TimeVal × TimeVal)} {T T' : TimeoutTimer} (h : After m s l T)
    (e : uses T us = .ok T') : After m s (l ++ us.map readings) T' := by
  induction us generalizing T l with
  | nil => simp only [Timeout.uses, Outcome.ok.injEq] at e; subst e; simpa using h
  | cons u us ih =>
    cases u with
    | check a b =>
      simp only [Timeout.uses, TimeoutTimer.check, Outcome.bind_eq] at e
      by_cases ha : (T.hasTimedOut a b).1 = true
      · simp [ha] at e
      · rw [if_neg ha] at e
        have := ih (h.hasTimedOut a b) e
        simpa [readings] using this
    | remaining a b =>
      have := ih (h.remaining a b) e
      simpa [readings] using this

theorem Spec.Forward.append : ∀ {l l' : List (TimeVal × TimeVal)} {t : TimeVal}, Forward t (l ++ l') → Forward t l
  | [], _, _, _ => trivial
  | (_, _) :: _, _, _, h => ⟨h.1, h.2.1, h.2.2.append⟩

theorem Spec.Forward.lost_nonneg : ∀ {l : List (TimeVal × TimeVal)} {t : TimeVal}, Forward t l → 0 ≤ lost l
  | [], _, _ => by simp [lost]
  | (a, b) :: l, _, h => by
    have := h.2.2.lost_nonneg
    have h2 := h.2.1
    simp only [lost, List.map_cons, List.sum_cons] at this ⊢
    omega

/-- **Not too early**: if a query whose limit is `m` microseconds is aborted by a check, the limit has passed at that check,
provided that the clock never runs backwards. -/
theorem C82_not_early (m : Int) (s : TimeVal) (us : List Use) (hf : Forward s (us.map readings))
    (e : uses ((TimeoutTimer.fromMicroseconds m).start s) us = .throw) :
    ∃ a b, Use.check a b ∈ us ∧ ¬ MayGoOn (some m) s a := by
  suffices H : ∀ (us : List Use) (done : List (TimeVal × TimeVal)) (T : TimeoutTimer), After m s done T → Forward s (done ++ us.map readings) →
      uses T us = .throw → ∃ a b, Use.check a b ∈ us ∧ ¬ MayGoOn (some m) s a from H us [] _ (After.start m s) (by simpa using hf) e
  intro us
  induction us with
  | nil => intro done T _ _ e; simp [uses] at e
  | cons u us ih =>
    intro done T h hf e
    cases u with
    | check a b =>
      simp only [uses, TimeoutTimer.check, Outcome.bind_eq] at e
      by_cases ha : (T.hasTimedOut a b).1 = true
      · refine ⟨a, b, List.mem_cons_self, fun hm => ?_⟩
        have h1 := (h.answer a b).mp ha
        have h2 := hf.append.lost_nonneg
        have h3 := hm m rfl
        omega
      · rw [if_neg ha] at e
        obtain ⟨x, y, hx, hy⟩ := ih _ _ (h.hasTimedOut a b) (by simpa [readings] using hf) e
        exact ⟨x, y, List.mem_cons_of_mem _ hx, hy⟩
    | remaining a b =>
      obtain ⟨x, y, hx, hy⟩ := ih _ _ (h.remaining a b) (by simpa [readings] using hf) e
      exact ⟨x, y, List.mem_cons_of_mem _ hx, hy⟩

/-- **Not too late**: a query gets past a check exactly if all earlier checks let it pass and the time since the start, without the
time between the two readings of earlier uses of the timer, is within the limit.  Missing: that time is not counted, see
`C82_lost_violated`. -/
theorem C82_check_partial (m : Int) (s : TimeVal) (us : List Use) (T : TimeoutTimer) (a b : TimeVal)
    (e : uses ((TimeoutTimer.fromMicroseconds m).start s) us = .ok T) :
    ((∃ T', uses ((TimeoutTimer.fromMicroseconds m).start s) (us ++ [.check a b]) = .ok T') ↔
      MayGoOn (some (m + lost (us.map readings))) s a) ∧
    (uses ((TimeoutTimer.fromMicroseconds m).start s) (us ++ [.check a b]) = .throw ↔
      ¬ MayGoOn (some (m + lost (us.map readings))) s a) := by
  have h := (After.start m s).uses us e
  have ha := h.answer a b
  have hm : MayGoOn (some (m + lost (us.map readings))) s a ↔ micro a - micro s ≤ m + lost (us.map readings) :=
    ⟨fun x => x _ rfl, fun x _ hy => by cases hy; exact x⟩
  rw [uses_append, e, hm]
  simp only [List.nil_append] at ha
  simp only [Outcome.bind, uses, TimeoutTimer.check, Outcome.bind_eq]
  by_cases hb : (T.hasTimedOut a b).1 = true
  · have := ha.mp hb
    simp only [hb, if_true]
    refine ⟨⟨fun ⟨_, h⟩ => (by cases h), fun h => ?_⟩, ⟨fun _ => ?_, fun _ => trivial⟩⟩ <;> omega
  · have : ¬ _ := fun x => hb (ha.mpr x)
    simp only [hb, Bool.false_eq_true, if_false]
    refine ⟨⟨fun _ => ?_, fun _ => ⟨_, rfl⟩⟩, ⟨fun h => (by cases h), fun h => ?_⟩⟩ <;> omega

/-- **Results are in time**: if the computation of an operation returns a result, the limit had not passed (up to the time that is not
counted) after the computation. -/
theorem C82_result_partial (m : Int) (s : TimeVal) (earlier body : List Use) (before after : TimeVal × TimeVal) (T T' : TimeoutTimer)
    (e : uses ((TimeoutTimer.fromMicroseconds m).start s) earlier = .ok T) (r : computed T before body after = .ok T') :
    MayGoOn (some (m + lost (earlier.map readings ++ before :: body.map readings))) s after.1 := by
  have hc : computed T before body after = uses T (.check before.1 before.2 :: body ++ [.check after.1 after.2]) := by
    rw [uses_append]
    simp only [computed, uses, Outcome.bind_eq]
    cases T.check before.1 before.2 with
    | ok T1 =>
      simp only [Outcome.bind]
      cases uses T1 body with
      | ok T2 => simp only []; cases T2.check after.1 after.2 <;> rfl
      | _ => rfl
    | _ => rfl
  rw [hc, uses_append] at r
  cases e2 : uses T (.check before.1 before.2 :: body) with
  | ok T2 =>
    have e3 : uses ((TimeoutTimer.fromMicroseconds m).start s) (earlier ++ .check before.1 before.2 :: body) = .ok T2 := by
      rw [uses_append, e]; exact e2
    rw [e2] at r
    have := (C82_check_partial m s _ T2 after.1 after.2 e3).1.mp ⟨T', by rw [uses_append, e3]; exact r⟩
    simpa [readings] using this
  | throw => rw [e2] at r; cases r
  | ub => rw [e2] at r; cases r
  | diverge => rw [e2] at r; cases r

/-- **Without a limit** no check aborts a query, and the remaining time is the largest number. -/
theorem C82_unlimited (s : TimeVal) (T : TimeoutTimer) (h : queryTimer none s = .ok T) (us : List Use) (a b : TimeVal) :
    uses T us = .ok T ∧ (T.remaining a b).1 = 2 ^ 63 - 1 := by
  simp only [queryTimer, Outcome.ok.injEq] at h
  have hu : T.unlimited = true := by rw [← h]; rfl
  constructor
  · induction us with
    | nil => rfl
    | cons u us ih => cases u <;> simp [uses, TimeoutTimer.check, TimeoutTimer.hasTimedOut, TimeoutTimer.remaining, hu, ih]
  · simp [TimeoutTimer.remaining, hu]

/-- **Remaining time**: what is left of the limit (up to the time that is not counted), never negative. -/
theorem C82_remaining_partial (m : Int) (s : TimeVal) (us : List Use) (T : TimeoutTimer) (a b : TimeVal)
    (e : uses ((TimeoutTimer.fromMicroseconds m).start s) us = .ok T) :
    (T.remaining a b).1 = max 0 (m - (micro a - micro s - lost (us.map readings))) := by
  obtain ⟨h1, h2, h3, h4⟩ := (After.start m s).uses us e
  simp only [TimeoutTimer.remaining, h2, Timer.stop, h3, if_true, h1, micro, List.nil_append] at h4 ⊢
  simp only [Bool.false_eq_true, if_false]
  split <;> omega

/-- **Loops**: when the time is up, a loop that counts its operations throws before it has counted `N` more of them. -/
theorem C82_loop (N : Nat) (m : Int) (s : TimeVal) (done : List (TimeVal × TimeVal)) (T : TimeoutTimer) (h : After m s done T) (i : Nat)
    (t : TimeVal) (up : micro t - micro s - lost done > m) (calls : List (Nat × TimeVal × TimeVal))
    (hf : ∀ c ∈ calls, micro t ≤ micro c.2.1) (enough : N ≤ (calls.map (·.1)).sum) (hN : 0 < N) :
    loop N (i, T) calls = .throw := by
  suffices H : ∀ (calls : List (Nat × TimeVal × TimeVal)) (i : Nat), (∀ c ∈ calls, micro t ≤ micro c.2.1) →
      N ≤ i + (calls.map (·.1)).sum → i < N → loop N (i, T) calls = .throw by
    by_cases hi : i < N
    · exact H calls i hf (by omega) hi
    · cases calls with
      | nil => simp at enough; omega
      | cons c cs =>
        have hc := hf c List.mem_cons_self
        have ht : (T.hasTimedOut c.2.1 c.2.2).1 = true := (h.answer _ _).mpr (by omega)
        have : N ≤ i + c.1 := by omega
        simp [loop, afterNCalls, this, TimeoutTimer.check, ht]
  intro calls
  induction calls with
  | nil => intro i _ h1 h2; simp at h1; omega
  | cons c cs ih =>
    intro i hf h1 h2
    have hc := hf c List.mem_cons_self
    have ht : (T.hasTimedOut c.2.1 c.2.2).1 = true := (h.answer _ _).mpr (by omega)
    by_cases hn : N ≤ i + c.1
    · simp [loop, afterNCalls, hn, TimeoutTimer.check, ht]
    · have hi : ¬ i + c.1 ≥ N := hn
      simp only [loop, afterNCalls, hi, if_false, Outcome.bind_eq, Outcome.bind]
      simp only [List.map_cons, List.sum_cons] at h1
      exact ih _ (fun x hx => hf x (List.mem_cons_of_mem _ hx)) (by omega) (by omega)

/-- A loop that is not aborted has checked the timer: between two checks fewer than `N` operations are counted. -/
theorem C82_counter (N : Nat) (hN : 0 < N) (s s' : Nat × TimeoutTimer) (c : Nat × TimeVal × TimeVal)
    (e : afterNCalls N s c.1 c.2.1 c.2.2 = .ok s') :
    s'.1 < N ∧ (s'.1 = 0 ∧ s.2.check c.2.1 c.2.2 = .ok s'.2 ∨ s'.1 = s.1 + c.1 ∧ s'.2 = s.2) := by
  unfold afterNCalls at e
  by_cases hn : s.1 + c.1 ≥ N
  · simp only [hn, if_true, Outcome.bind_eq] at e
    cases hc : s.2.check c.2.1 c.2.2 with
    | ok T => rw [hc] at e; cases e; exact ⟨hN, .inl ⟨rfl, rfl⟩⟩
    | throw => rw [hc] at e; cases e
    | ub => rw [hc] at e; cases e
    | diverge => rw [hc] at e; cases e
  · simp only [hn, if_false] at e
    cases e
    exact ⟨by simpa using hn, .inr ⟨rfl, rfl⟩⟩

/-- **Measured times**: a timer that is started and stopped holds the time between the two readings, in whole milliseconds for
`msecs`. -/
theorem C82_measured (t : Timer) (a b : TimeVal) (h : micro a ≤ micro b) :
    ((t.start a).stop b).usecs = micro b - micro a ∧ ((t.start a).stop b).msecs = (micro b - micro a) / 1000 ∧
    ((t.start a).stop b).stop b = (t.start a).stop b := by
  have hu : ((t.start a).stop b).usecs = micro b - micro a := by simp only [Timer.stop, Timer.start, if_true, micro]; omega
  refine ⟨hu, ?_, by simp [Timer.stop]⟩
  rw [Timer.msecs, hu, Int.tdiv_eq_ediv_of_nonneg (by omega)]

/-- Time since the last mark: what has passed between the second reading of the mark and the stop. -/
theorem C82_mark (t : Timer) (a b c d : TimeVal) : ((((t.start a).mark b c).stop d).sinceMark) = micro d - micro c := by
  simp only [Timer.sinceMark, Timer.stop, Timer.mark, Timer.cont, Timer.start, if_true, micro]
  omega

theorem digitsValue_toDigits (n : Nat) : digitsValue (Nat.toDigits 10 n) = n := by
  have := Nat.ofDigitChars_ten_toDigits (n := n)
  simpa [digitsValue, Nat.ofDigitChars] using this

theorem not_sign {c : Char} (h : c.isDigit = true) : c ≠ '-' ∧ c ≠ '+' := by
  constructor <;> (rintro rfl; revert h; decide)

theorem splitSign_other {c : Char} (h1 : c ≠ '-') (h2 : c ≠ '+') (l : List Char) : splitSign (c :: l) = (false, c :: l) := by
  unfold splitSign
  split
  · rename_i he; cases he; exact absurd rfl h1
  · rename_i he; cases he; exact absurd rfl h2
  · rfl

/-- **The parameter**: a whole number of seconds gives that limit, as long as it fits. -/
theorem C82_parameter (n : Nat) (h : n * 1000000 < 2 ^ 63) (s : TimeVal) :
    queryTimer (some (Nat.toDigits 10 n)) s = .ok ((TimeoutTimer.fromMicroseconds (n * 1000000)).start s) := by
  have hd : ∀ c ∈ Nat.toDigits 10 n, c.isDigit = true := fun c => Nat.isDigit_of_mem_toDigits (by omega) (by omega)
  have hne : Nat.toDigits 10 n ≠ [] := List.length_pos_iff.mp Nat.length_toDigits_pos
  have hv := digitsValue_toDigits n
  generalize Nat.toDigits 10 n = l at hd hne hv
  have ht : l.takeWhile Char.isDigit = l := Modifiers.takeWhile_all hd
  have hdr : l.dropWhile Char.isDigit = [] := by
    have := List.takeWhile_append_dropWhile (p := Char.isDigit) (l := l)
    rw [ht] at this
    exact List.append_right_eq_self.mp this
  have hm : microseconds l = .ok (n * 1000000 : Nat) := by
    cases l with
    | nil => exact absurd rfl hne
    | cons c l =>
      have hs := not_sign (hd c List.mem_cons_self)
      have e1 : splitSign (c :: l) = (false, c :: l) := splitSign_other hs.1 hs.2 l
      unfold microseconds
      rw [e1]
      simp only [ht, hdr, fraction, List.append_nil, hv, List.length_nil, Nat.pow_zero, Nat.div_one]
      simp only [Bool.false_eq_true, if_false]
      rw [if_pos ⟨by omega, by omega⟩]
  simp [queryTimer, hm]

theorem digitsValue_append (a b : List Char) : digitsValue (a ++ b) = digitsValue a * 10 ^ b.length + digitsValue b := by
  have H : ∀ (b : List Char) (x : Nat), b.foldl (fun acc c => 10 * acc + (c.toNat - 48)) x = x * 10 ^ b.length + digitsValue b := by
    intro b
    induction b with
    | nil => simp [digitsValue]
    | cons c b ih =>
      intro x
      simp only [digitsValue, List.foldl_cons, List.length_cons] at ih ⊢
      rw [ih, ih (10 * 0 + _), Nat.pow_succ, Nat.add_mul, Nat.mul_zero, Nat.zero_add, Nat.mul_comm 10 x, Nat.mul_assoc,
        Nat.mul_comm 10 (10 ^ _), Nat.add_assoc]
  rw [digitsValue, List.foldl_append, H]
  rfl

theorem digitsValue_zeros (z : Nat) : digitsValue (List.replicate z '0') = 0 := by
  induction z with
  | zero => rfl
  | succ z ih => simpa [digitsValue, List.replicate_succ] using ih

/-- **Fractions of seconds**: `n` seconds and a fraction of `k` digits with the value `q` give the limit in whole microseconds, cut off;
what follows the digits is ignored. -/
theorem C82_fraction (n z q : Nat) (rest : List Char) (hr : ∀ c, rest.head? = some c → c.isDigit = false) (s : TimeVal) (k : Nat)
    (hk : k = z + (Nat.toDigits 10 q).length) (h : (n * 10 ^ k + q) * 1000000 / 10 ^ k < 2 ^ 63) :
    queryTimer (some (Nat.toDigits 10 n ++ '.' :: (List.replicate z '0' ++ Nat.toDigits 10 q) ++ rest)) s =
      .ok ((TimeoutTimer.fromMicroseconds ((n * 10 ^ k + q) * 1000000 / 10 ^ k : Nat)).start s) := by
  have hd : ∀ n, ∀ c ∈ Nat.toDigits 10 n, c.isDigit = true := fun n c => Nat.isDigit_of_mem_toDigits (by omega) (by omega)
  have hne : Nat.toDigits 10 n ≠ [] := List.length_pos_iff.mp Nat.length_toDigits_pos
  have hf : ∀ c ∈ List.replicate z '0' ++ Nat.toDigits 10 q, c.isDigit = true := by
    intro c hc
    rcases List.mem_append.mp hc with hc | hc
    · rw [List.eq_of_mem_replicate hc]; decide
    · exact hd q c hc
  have hl : (List.replicate z '0' ++ Nat.toDigits 10 q).length = k := by simp [hk]
  have hw := hd n
  have hv := digitsValue_toDigits n
  have hfv : digitsValue (List.replicate z '0' ++ Nat.toDigits 10 q) = q := by
    rw [digitsValue_append, digitsValue_zeros, digitsValue_toDigits]; simp
  generalize List.replicate z '0' ++ Nat.toDigits 10 q = f at hf hl hfv
  generalize Nat.toDigits 10 n = l at hw hne hv
  have hrt : rest.takeWhile Char.isDigit = [] := by
    cases rest with
    | nil => rfl
    | cons c r => simp [hr c rfl]
  have ht : (l ++ '.' :: f ++ rest).takeWhile Char.isDigit = l := by
    rw [List.append_assoc, List.takeWhile_append_of_pos hw]
    simp
  have hdr : (l ++ '.' :: f ++ rest).dropWhile Char.isDigit = '.' :: (f ++ rest) := by
    rw [List.append_assoc, List.dropWhile_append_of_pos hw]
    simp
  have hfr : fraction ('.' :: (f ++ rest)) = f := by
    show (f ++ rest).takeWhile Char.isDigit = f
    rw [List.takeWhile_append_of_pos hf, hrt, List.append_nil]
  have e1 : splitSign (l ++ '.' :: f ++ rest) = (false, l ++ '.' :: f ++ rest) := by
    cases l with
    | nil => exact absurd rfl hne
    | cons c l =>
      have hs := not_sign (hw c List.mem_cons_self)
      exact splitSign_other hs.1 hs.2 _
  have hm : microseconds (l ++ '.' :: f ++ rest) = .ok ((n * 10 ^ k + q) * 1000000 / 10 ^ k : Nat) := by
    unfold microseconds
    rw [e1]
    simp only [ht, hdr, hfr, digitsValue_append, hv, hfv, hl, Bool.false_eq_true, if_false]
    generalize (n * 10 ^ k + q) * 1000000 / 10 ^ k = m at h
    rw [if_pos ⟨by omega, by omega⟩]
  simp only [queryTimer, hm, Outcome.bind_eq, Outcome.bind]

/-- Disagreement: a text that is no number is taken as a limit of zero, so that the query is aborted at the first check after a
microsecond; nobody is told that the parameter is wrong.  (Texts that begin with "inf" or "nan" are outside of the model.) -/
theorem C82_malformed_violated (c : Char) (l : List Char) (hc : c.isAlpha = true) (s a b : TimeVal) (h : micro s < micro a) :
    ∃ T, queryTimer (some (c :: l)) s = .ok T ∧ T.check a b = .throw := by
  have hd : c.isDigit = false := by
    simp only [Char.isAlpha, Char.isUpper, Char.isLower, Char.isDigit, Bool.or_eq_true, Bool.and_eq_true, decide_eq_true_eq] at hc ⊢
    simp only [Bool.and_eq_false_iff, decide_eq_false_iff_not]
    simp only [ge_iff_le, UInt32.le_iff_toNat_le] at *
    simp at *
    omega
  have h1 : c ≠ '-' := by rintro rfl; revert hc; decide
  have h2 : c ≠ '+' := by rintro rfl; revert hc; decide
  have h3 : c ≠ '.' := by rintro rfl; revert hc; decide
  have hm : microseconds (c :: l) = .ok 0 := by
    have e1 : splitSign (c :: l) = (false, c :: l) := splitSign_other h1 h2 l
    have e2 : fraction (c :: l) = [] := by
      unfold fraction
      split
      · rename_i he; cases he; exact absurd rfl h3
      · rfl
    unfold microseconds
    rw [e1]
    simp only [List.takeWhile_cons, List.dropWhile_cons, hd, Bool.false_eq_true, if_false, e2]
    simp [digitsValue]
  refine ⟨(TimeoutTimer.fromMicroseconds 0).start s, by simp only [queryTimer, hm, Outcome.bind_eq, Outcome.bind], ?_⟩
  have := ((After.start 0 s).answer a b).mpr (by simp [lost]; omega)
  simp [TimeoutTimer.check, this]

/-- Disagreement: a very large number of seconds is undefined behaviour. -/
theorem C82_large_violated : ∀ s, queryTimer (some "10000000000000".toList) s = .ub := by
  intro s
  have : microseconds "10000000000000".toList = .ub := by decide
  simp only [queryTimer, this, Outcome.bind_eq, Outcome.bind]

/-- Disagreement: the time that passes while the timer is checked is not counted, so a query whose limit is one second may go on
after three seconds. -/
theorem C82_lost_violated : ∃ (us : List Use) (a b : TimeVal) (T : TimeoutTimer),
    Forward ⟨0, 0⟩ (us.map readings ++ [(a, b)]) ∧
    uses ((TimeoutTimer.fromMicroseconds 1000000).start ⟨0, 0⟩) (us ++ [.check a b]) = .ok T ∧ ¬ MayGoOn (some 1000000) ⟨0, 0⟩ a := by
  refine ⟨[.check ⟨0, 500000⟩ ⟨2, 700000⟩], ⟨3, 0⟩, ⟨3, 0⟩, _, ?_, rfl, fun h => ?_⟩
  · simp [Forward, readings, micro]
  · have := h _ rfl
    simp [micro] at this

theorem uses_never (us : List Use) : uses TimeoutTimer.never us = .ok TimeoutTimer.never := by
  induction us with
  | nil => rfl
  | cons u us ih => cases u <;> simpa [uses, TimeoutTimer.check, TimeoutTimer.hasTimedOut, TimeoutTimer.remaining, TimeoutTimer.never] using ih

theorem planned_ok : ∀ scans, planned scans = .ok ()
  | [] => rfl
  | s :: l => by
    have h : ∀ a b, TimeoutTimer.never.check a b = .ok TimeoutTimer.never := fun _ _ => rfl
    simp only [planned, computed, h, uses_never, Outcome.bind_eq, Outcome.bind]
    exact planned_ok l

/-- **Whole queries**: a query with a limit of `n` seconds that returns a result was within its limit after the computation (up to the
time that is not counted), and it is aborted if planning has used up its time. -/
theorem C82_query_partial (n : Nat) (h : n * 1000000 < 2 ^ 63) (s : TimeVal)
    (scans : List ((TimeVal × TimeVal) × List Use × (TimeVal × TimeVal))) (before after : TimeVal × TimeVal) (body : List Use) :
    (∀ T, query (some (Nat.toDigits 10 n)) s scans before body after = .ok T →
      MayGoOn (some (n * 1000000 + lost (before :: body.map readings))) s after.1) ∧
    (¬ MayGoOn (some (n * 1000000)) s before.1 → query (some (Nat.toDigits 10 n)) s scans before body after = .throw) := by
  have hq : query (some (Nat.toDigits 10 n)) s scans before body after =
      computed ((TimeoutTimer.fromMicroseconds (n * 1000000)).start s) before body after := by
    simp only [query, C82_parameter n h s, planned_ok, Outcome.bind_eq, Outcome.bind]
  rw [hq]
  constructor
  · intro T e
    simpa using C82_result_partial (n * 1000000) s [] body before after _ T rfl e
  · intro hm
    have : ((((TimeoutTimer.fromMicroseconds (n * 1000000)).start s)).hasTimedOut before.1 before.2).1 = true := by
      refine ((After.start (n * 1000000) s).answer _ _).mpr ?_
      have : ¬ (micro before.1 - micro s ≤ (n : Int) * 1000000) := fun x => hm (fun m e => by cases e; exact x)
      simp only [lost, List.map_nil, List.sum_nil]
      omega
    simp [computed, TimeoutTimer.check, this]

/-- Disagreement: the limit does not hold while a query is planned.  Whatever the limit and however late it is, scans that are
computed during planning go on, including checks long after the limit. -/
theorem C82_planning_violated (m : Int) (s : TimeVal) : ∃ (before after : TimeVal × TimeVal) (body : List Use),
    ¬ MayGoOn (some m) s before.1 ∧ Forward s (before :: body.map readings ++ [after]) ∧ body ≠ [] ∧
    planned [(before, body, after)] = .ok () := by
  have hm : micro ⟨0, micro s + m.natAbs + 1⟩ = micro s + m.natAbs + 1 := by simp [micro]
  refine ⟨(⟨0, micro s + m.natAbs + 1⟩, ⟨0, micro s + m.natAbs + 1⟩), (⟨0, micro s + m.natAbs + 1⟩, ⟨0, micro s + m.natAbs + 1⟩),
    [.check ⟨0, micro s + m.natAbs + 1⟩ ⟨0, micro s + m.natAbs + 1⟩], fun h => ?_, ?_, by simp, planned_ok _⟩
  · have := h m rfl
    simp only [hm] at this
    omega
  · simp only [List.map_cons, List.map_nil, readings, List.cons_append, List.nil_append, Forward, hm]
    exact ⟨by omega, by omega, by omega, by omega, by omega, by omega, trivial⟩

/-! Examples -/

/-- 0.050 seconds, then something else -/
example : queryTimer (some "0.050s".toList) ⟨1, 2⟩ = .ok ((TimeoutTimer.fromMicroseconds 50000).start ⟨1, 2⟩) :=
  C82_fraction 0 1 50 ['s'] (by simp) ⟨1, 2⟩ 3 (by decide) (by decide)

/-- a query with a limit of one second that is planned with one scan -/
example : ∃ T, query (some "1".toList) ⟨10, 0⟩ [((⟨10, 1⟩, ⟨10, 1⟩), [.check ⟨10, 2⟩ ⟨10, 2⟩], (⟨10, 3⟩, ⟨10, 3⟩))] (⟨10, 4⟩, ⟨10, 5⟩)
    [.check ⟨10, 300000⟩ ⟨10, 300000⟩] (⟨10, 999999⟩, ⟨10, 999999⟩) = .ok T := ⟨_, rfl⟩

example : query (some "1".toList) ⟨10, 0⟩ [((⟨12, 1⟩, ⟨12, 1⟩), [], (⟨13, 3⟩, ⟨13, 3⟩))] (⟨13, 4⟩, ⟨13, 5⟩) [] (⟨13, 4⟩, ⟨13, 5⟩) = .throw := rfl

/-- two checks within one second, then one after it -/
example : uses ((TimeoutTimer.fromMicroseconds 1000000).start ⟨10, 0⟩)
    [.check ⟨10, 500000⟩ ⟨10, 500001⟩, .remaining ⟨10, 600000⟩ ⟨10, 600000⟩, .check ⟨11, 2⟩ ⟨11, 2⟩] = .throw := by decide

example : Forward ⟨10, 0⟩ ([Use.check ⟨10, 500000⟩ ⟨10, 500001⟩, .remaining ⟨10, 600000⟩ ⟨10, 600000⟩, .check ⟨11, 2⟩ ⟨11, 2⟩].map readings) := by
  simp [Forward, readings, micro]

example : ∃ T T', uses ((TimeoutTimer.fromMicroseconds 1000000).start ⟨10, 0⟩) [.check ⟨10, 500000⟩ ⟨10, 500001⟩] = .ok T ∧
    computed T (⟨10, 600000⟩, ⟨10, 600000⟩) [.remaining ⟨10, 700000⟩ ⟨10, 700000⟩] (⟨10, 800000⟩, ⟨10, 800000⟩) = .ok T' :=
  ⟨_, _, rfl, rfl⟩

example : (TimeoutTimer.remaining ((TimeoutTimer.fromMicroseconds 1000000).start ⟨10, 0⟩) ⟨10, 300000⟩ ⟨10, 300000⟩).1 = 700000 := by decide

/-- a loop that checks after 100 operations -/
example : loop 100 (90, (TimeoutTimer.fromMicroseconds 1000000).start ⟨10, 0⟩)
    [(32, ⟨11, 5⟩, ⟨11, 5⟩), (64, ⟨11, 5⟩, ⟨11, 5⟩), (32, ⟨11, 6⟩, ⟨11, 6⟩)] = .throw :=
  C82_loop 100 1000000 ⟨10, 0⟩ [] _ (After.start _ _) 90 ⟨11, 5⟩ (by simp [micro, lost]) _
    (by intro c hc; simp at hc; rcases hc with rfl | rfl | rfl <;> simp [micro]) (by decide) (by decide)

example : loop 100 (0, (TimeoutTimer.fromMicroseconds 1000000).start ⟨10, 0⟩) [(32, ⟨11, 5⟩, ⟨11, 5⟩), (64, ⟨11, 5⟩, ⟨11, 5⟩)] =
    .ok (96, (TimeoutTimer.fromMicroseconds 1000000).start ⟨10, 0⟩) := by decide

example : (((Timer.mk 7 7 ⟨0, 0⟩ false).start ⟨3, 999000⟩).stop ⟨5, 500⟩).msecs = 1001 := by decide

example : queryTimer (some "30".toList) ⟨1, 2⟩ = .ok ((TimeoutTimer.fromMicroseconds 30000000).start ⟨1, 2⟩) := by decide
example : queryTimer (some "0.25s".toList) ⟨1, 2⟩ = .ok ((TimeoutTimer.fromMicroseconds 250000).start ⟨1, 2⟩) := by decide
example : queryTimer (some "-1".toList) ⟨1, 2⟩ = .ok ((TimeoutTimer.fromMicroseconds (-1000000)).start ⟨1, 2⟩) := by decide
example : queryTimer (some "none".toList) ⟨1, 2⟩ = .ok ((TimeoutTimer.fromMicroseconds 0).start ⟨1, 2⟩) := by decide

end Verif.Timeout
