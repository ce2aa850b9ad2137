import Mathlib.Data.Rat.Defs
import Mathlib.Algebra.Order.Field.Basic
import Mathlib.Algebra.Order.Ring.Rat
import Mathlib.Tactic.Ring
import Mathlib.Tactic.FinCases
import Mathlib.Tactic.Linarith
import Verif.Trace.Parser

/-!
# Numbers in TRACE 3-D files (C35)
-/

namespace Verif.Trace

open Verif.Lattice

variable {R : Type}

/-! ## Specification: decimal numerals -/

inductive Sign
  | none
  | plus
  | minus
  deriving DecidableEq

def Sign.text : Sign → Str
  | .none => []
  | .plus => ['+']
  | .minus => ['-']

def Sign.value : Sign → ℚ
  | .minus => -1
  | _ => 1

/-- `sign int . frac mark sign exponent`, with fraction and exponent optional. -/
structure Numeral where
  sign : Sign
  int : Str
  frac : Option Str
  exp : Option (Char × Sign × Str)

def Digits (s : Str) : Prop := ∀ c ∈ s, c.isDigit = true

/-- Not part of a number without exponent. -/
def SepChar (c : Char) : Prop := c.isDigit = false ∧ c ≠ '+' ∧ c ≠ '-' ∧ c ≠ '.'

/-- At least one digit, and a digit in the exponent, which starts with a letter such as `e`. -/
structure Numeral.Ok (n : Numeral) : Prop where
  int : Digits n.int
  frac : ∀ f, n.frac = some f → Digits f
  digit : n.int ≠ [] ∨ ∃ f, n.frac = some f ∧ f ≠ []
  exp : ∀ m s d, n.exp = some (m, s, d) → SepChar m ∧ Digits d ∧ d ≠ []

def fracText : Option Str → Str
  | none => []
  | some f => '.' :: f

def expText : Option (Char × Sign × Str) → Str
  | none => []
  | some (m, s, d) => m :: (s.text ++ d)

/-- The text. -/
def Numeral.text (n : Numeral) : Str := n.sign.text ++ (n.int ++ (fracText n.frac ++ expText n.exp))

/-- Value of decimal digits. -/
def natVal (s : Str) : ℕ := s.foldl (fun v c => v * 10 + (c.toNat - '0'.toNat)) 0

/-- The number a numeral stands for. -/
def Numeral.value (n : Numeral) : ℚ :=
  n.sign.value * (natVal (n.int ++ n.frac.getD []) / 10 ^ (n.frac.getD []).length) *
    match n.exp with
    | none => 1
    | some (_, .minus, d) => 1 / 10 ^ natVal d
    | some (_, _, d) => 10 ^ natVal d

/-! ## What the pattern finds in a numeral -/

/-- The part in front of the exponent. -/
def Numeral.readMantissa (n : Numeral) : Numeral :=
  if n.frac = none ∨ n.frac = some [] then ⟨.none, n.int, none, none⟩ else ⟨n.sign, n.int, n.frac, none⟩

/-- The numbers read from a numeral. -/
def Numeral.reads (n : Numeral) : List Numeral :=
  n.readMantissa :: match n.exp with
    | none => []
    | some (_, _, d) => [⟨.none, d, none, none⟩]

/-! ## Lemmas on the scanner -/

theorem takeWhile_digits {d rest : Str} (hd : Digits d) (hr : ∀ c, rest.head? = some c → c.isDigit = false) :
    (d ++ rest).takeWhile Char.isDigit = d := by
  induction d with
  | nil =>
    cases rest with
    | nil => rfl
    | cons c rest => simp [List.takeWhile_cons, hr c rfl]
  | cons c d ih =>
    simp [List.takeWhile_cons, hd c (by simp), ih fun x hx => hd x (List.mem_cons_of_mem _ hx)]

theorem dropWhile_digits {d rest : Str} (hd : Digits d) (hr : ∀ c, rest.head? = some c → c.isDigit = false) :
    (d ++ rest).dropWhile Char.isDigit = rest := by
  induction d with
  | nil =>
    cases rest with
    | nil => rfl
    | cons c rest => simp [List.dropWhile_cons, hr c rfl]
  | cons c d ih =>
    simp [List.dropWhile_cons, hd c (by simp), ih fun x hx => hd x (List.mem_cons_of_mem _ hx)]

/-- The part of `matchDecimal` behind the sign. -/
def matchUnsigned (k : Nat) (t : Str) : Option Nat :=
  match t.dropWhile Char.isDigit with
  | '.' :: u =>
    if u.takeWhile Char.isDigit = [] then none
    else some (k + (t.takeWhile Char.isDigit).length + 1 + (u.takeWhile Char.isDigit).length)
  | _ => none

theorem matchDecimal_sign (s : Sign) (t : Str) (h : s = .none → t.head? ≠ some '-' ∧ t.head? ≠ some '+') :
    matchDecimal (s.text ++ t) = matchUnsigned s.text.length t := by
  cases s with
  | minus => rfl
  | plus => rfl
  | none =>
    obtain ⟨h1, h2⟩ := h rfl
    have hm : matchSign t = (0, t) := by
      unfold matchSign
      split
      · exact absurd rfl h1
      · exact absurd rfl h2
      · rfl
    unfold matchDecimal
    rw [Sign.text, List.nil_append, hm]
    rfl

theorem matchUnsigned_dec {int f rest : Str} (k : Nat) (hi : Digits int) (hf : Digits f) (hne : f ≠ [])
    (hr : ∀ c, rest.head? = some c → c.isDigit = false) :
    matchUnsigned k (int ++ '.' :: (f ++ rest)) = some (k + int.length + 1 + f.length) := by
  have hp : ∀ c, ('.' :: (f ++ rest)).head? = some c → c.isDigit = false := by
    intro c hc; injection hc with hc; rw [← hc]; decide
  unfold matchUnsigned
  rw [dropWhile_digits hi hp, takeWhile_digits hi hp]
  simp only [takeWhile_digits hf hr, if_neg hne]

theorem matchUnsigned_none {int rest : Str} (k : Nat) (hi : Digits int)
    (hr : ∀ c, rest.head? = some c → c.isDigit = false)
    (hd : ∀ u, rest = '.' :: u → ∀ c, u.head? = some c → c.isDigit = false) :
    matchUnsigned k (int ++ rest) = none := by
  unfold matchUnsigned
  rw [dropWhile_digits hi hr, takeWhile_digits hi hr]
  split
  · rename_i u
    rw [if_pos]
    have := hd u rfl
    cases u with
    | nil => rfl
    | cons c u => simp [List.takeWhile_cons, this c rfl]
  · rfl

theorem findFrom_skip (m : Str → Option Nat) (a b : Str) : findFrom m a.length (a ++ b) = findFrom m 0 b := by
  induction a with
  | nil => rfl
  | cons c a ih => simpa [findFrom] using ih

theorem findFrom_match {m : Str → Option Nat} {a b : Str} (hne : a ≠ []) (h : m (a ++ b) = some a.length) :
    findFrom m 0 (a ++ b) = a :: findFrom m 0 b := by
  obtain ⟨c, a, rfl⟩ := List.exists_cons_of_ne_nil hne
  rw [List.cons_append] at h ⊢
  rw [findFrom, h]
  simp only
  rw [show (c :: (a ++ b)).take (c :: a).length = c :: a by simp]
  rw [show (c :: a).length - 1 = a.length by simp, findFrom_skip]

theorem findFrom_none {m : Str → Option Nat} {c : Char} {b : Str} (h : m (c :: b) = none) :
    findFrom m 0 (c :: b) = findFrom m 0 b := by
  rw [findFrom, h]

theorem head_digits {d rest : Str} (hd : Digits d) (hne : d ≠ []) :
    ∃ c, (d ++ rest).head? = some c ∧ c.isDigit = true := by
  obtain ⟨c, d, rfl⟩ := List.exists_cons_of_ne_nil hne
  exact ⟨c, rfl, hd c (by simp)⟩

theorem digit_not_sign {c : Char} (h : c.isDigit = true) : c ≠ '-' ∧ c ≠ '+' := by
  constructor <;> (rintro rfl; revert h; decide)

/-- A separator is skipped. -/
theorem findFrom_sep {c : Char} (h : SepChar c) (rest : Str) :
    findFrom matchNumber 0 (c :: rest) = findFrom matchNumber 0 rest := by
  refine findFrom_none ?_
  have h1 : matchDecimal (c :: rest) = none := by
    have := matchDecimal_sign .none (c :: rest) (fun _ => ⟨by simpa using h.2.2.1, by simpa using h.2.1⟩)
    rw [Sign.text, List.nil_append] at this
    rw [this]
    exact matchUnsigned_none (int := []) 0 (by simp [Digits]) (by intro d hd; injection hd with hd; rw [← hd]; exact h.1)
      (by intro u hu; injection hu with hu; exact absurd hu h.2.2.2)
  have h2 : matchDigits (c :: rest) = none := by
    unfold matchDigits
    simp [List.takeWhile_cons, h.1]
  unfold matchNumber
  rw [h1, h2]

theorem findFrom_seps {s : Str} (h : ∀ c ∈ s, SepChar c) (rest : Str) :
    findFrom matchNumber 0 (s ++ rest) = findFrom matchNumber 0 rest := by
  induction s with
  | nil => rfl
  | cons c s ih =>
    rw [List.cons_append, findFrom_sep (h c (by simp)), ih fun x hx => h x (List.mem_cons_of_mem _ hx)]

/-- Digits, with or without a sign, that are not followed by a fraction: the sign is not read. -/
theorem findFrom_int (s : Sign) {d rest : Str} (hd : Digits d) (hne : d ≠ [])
    (hr : ∀ c, rest.head? = some c → c.isDigit = false)
    (hf : ∀ u, rest = '.' :: u → ∀ c, u.head? = some c → c.isDigit = false) :
    findFrom matchNumber 0 (s.text ++ (d ++ rest)) = d :: findFrom matchNumber 0 rest := by
  obtain ⟨c, hc, hcd⟩ := head_digits (rest := rest) hd hne
  have hns : (d ++ rest).head? ≠ some '-' ∧ (d ++ rest).head? ≠ some '+' := by
    rw [hc]
    exact ⟨by simpa using (digit_not_sign hcd).1, by simpa using (digit_not_sign hcd).2⟩
  have hdig : findFrom matchNumber 0 (d ++ rest) = d :: findFrom matchNumber 0 rest := by
    refine findFrom_match hne ?_
    have h1 := matchDecimal_sign .none (d ++ rest) (fun _ => hns)
    rw [Sign.text, List.nil_append, matchUnsigned_none _ hd hr hf] at h1
    unfold matchNumber
    rw [h1]
    simp only [matchDigits, takeWhile_digits hd hr, if_neg hne]
  have hsign : ∀ x : Char, x.isDigit = false → matchDecimal (x :: (d ++ rest)) = none →
      findFrom matchNumber 0 (x :: (d ++ rest)) = findFrom matchNumber 0 (d ++ rest) := by
    intro x hx hm
    refine findFrom_none ?_
    unfold matchNumber
    rw [hm]
    simp [matchDigits, List.takeWhile_cons, hx]
  cases s with
  | none => exact hdig
  | plus =>
    have := matchDecimal_sign .plus (d ++ rest) (by simp)
    rw [matchUnsigned_none _ hd hr hf] at this
    rw [← hdig]
    exact hsign '+' (by decide) this
  | minus =>
    have := matchDecimal_sign .minus (d ++ rest) (by simp)
    rw [matchUnsigned_none _ hd hr hf] at this
    rw [← hdig]
    exact hsign '-' (by decide) this

/-- A number with digits behind the point is read with its sign. -/
theorem findFrom_dec (s : Sign) {int f rest : Str} (hi : Digits int) (hf : Digits f) (hne : f ≠ [])
    (hr : ∀ c, rest.head? = some c → c.isDigit = false) :
    findFrom matchNumber 0 (s.text ++ (int ++ '.' :: (f ++ rest))) =
      (s.text ++ (int ++ '.' :: f)) :: findFrom matchNumber 0 rest := by
  have hx : s.text ++ (int ++ '.' :: (f ++ rest)) = (s.text ++ (int ++ '.' :: f)) ++ rest := by simp
  rw [hx]
  refine findFrom_match (by simp) ?_
  rw [← hx]
  have hns : s = .none → (int ++ '.' :: (f ++ rest)).head? ≠ some '-' ∧ (int ++ '.' :: (f ++ rest)).head? ≠ some '+' := by
    intro _
    cases int with
    | nil => exact ⟨by simp, by simp⟩
    | cons c int =>
      have := digit_not_sign (hi c (by simp))
      exact ⟨by simpa using this.1, by simpa using this.2⟩
  unfold matchNumber
  rw [matchDecimal_sign s _ hns, matchUnsigned_dec _ hi hf hne hr]
  simp only [List.length_append, List.length_cons]
  congr 1
  omega

theorem numeral_reads (n : Numeral) (hn : n.Ok) (rest : Str) (hr : ∀ c, rest.head? = some c → SepChar c) :
    findFrom matchNumber 0 (n.text ++ rest) = n.reads.map Numeral.text ++ findFrom matchNumber 0 rest := by
  obtain ⟨sign, int, frac, exp⟩ := n
  obtain ⟨h1, h2, h3, h4⟩ := hn
  simp only at h1 h2 h3 h4
  have hr' : ∀ c, rest.head? = some c → c.isDigit = false := fun c hc => (hr c hc).1
  have hrp : ∀ u, rest ≠ '.' :: u := by
    rintro u rfl
    exact (hr '.' rfl).2.2.2 rfl
  -- the exponent
  have hexp : findFrom matchNumber 0 (expText exp ++ rest) =
      (match exp with
        | none => []
        | some (_, _, d) => [Numeral.text ⟨.none, d, none, none⟩]) ++ findFrom matchNumber 0 rest := by
    cases exp with
    | none => rfl
    | some x =>
      obtain ⟨m, s, d⟩ := x
      obtain ⟨hm, hd, hdne⟩ := h4 m s d rfl
      simp only [expText, List.cons_append, List.append_assoc]
      rw [findFrom_sep hm, findFrom_int s hd hdne hr' (fun u hu => absurd hu (hrp u))]
      simp [Numeral.text, fracText, expText, Sign.text]
  have hehead : ∀ c, (expText exp ++ rest).head? = some c → c.isDigit = false ∧ c ≠ '.' := by
    intro c hc
    cases exp with
    | none => exact ⟨(hr c hc).1, (hr c hc).2.2.2⟩
    | some x =>
      obtain ⟨m, s, d⟩ := x
      injection hc with hc
      subst hc
      obtain ⟨hm, _, _⟩ := h4 m s d rfl
      exact ⟨hm.1, hm.2.2.2⟩
  have hgoal : ∀ m : Numeral, findFrom matchNumber 0 (Numeral.text ⟨sign, int, frac, exp⟩ ++ rest) =
      m.text :: findFrom matchNumber 0 (expText exp ++ rest) → m = Numeral.readMantissa ⟨sign, int, frac, exp⟩ →
      findFrom matchNumber 0 (Numeral.text ⟨sign, int, frac, exp⟩ ++ rest) =
        (Numeral.reads ⟨sign, int, frac, exp⟩).map Numeral.text ++ findFrom matchNumber 0 rest := by
    intro m hm hmm
    rw [hm, hexp, hmm]
    unfold Numeral.reads
    cases exp with
    | none => rfl
    | some x => rfl
  cases frac with
  | none =>
    have hne : int ≠ [] := by
      rcases h3 with h | ⟨f, hf, _⟩
      · exact h
      · exact absurd hf (by simp)
    refine hgoal ⟨.none, int, none, none⟩ ?_ (by simp [Numeral.readMantissa])
    have := findFrom_int sign (rest := expText exp ++ rest) h1 hne (fun c hc => (hehead c hc).1)
      (fun u hu => absurd rfl (hehead '.' (by rw [hu]; rfl)).2)
    simpa [Numeral.text, fracText, expText, Sign.text] using this
  | some f =>
    have hfd := h2 f rfl
    by_cases hf : f = []
    · subst hf
      have hne : int ≠ [] := by
        rcases h3 with h | ⟨f, hf, hf'⟩
        · exact h
        · injection hf with hf; exact absurd hf.symm hf'
      refine hgoal ⟨.none, int, none, none⟩ ?_ (by simp [Numeral.readMantissa])
      have hdot : findFrom matchNumber 0 ('.' :: (expText exp ++ rest)) = findFrom matchNumber 0 (expText exp ++ rest) := by
        refine findFrom_none ?_
        have := matchDecimal_sign .none ('.' :: (expText exp ++ rest)) (by simp)
        rw [Sign.text, List.nil_append] at this
        have hu := matchUnsigned_none (int := []) (rest := '.' :: (expText exp ++ rest)) ([] : Str).length (by simp [Digits])
          (by intro c hc; injection hc with hc; rw [← hc]; decide)
          (by intro u hu c hc; injection hu with _ hu; rw [← hu] at hc; exact (hehead c hc).1)
        rw [List.nil_append] at hu
        unfold matchNumber
        rw [this, hu]
        simp [matchDigits, List.takeWhile_cons, show Char.isDigit '.' = false by decide]
      have := findFrom_int sign (rest := '.' :: (expText exp ++ rest)) h1 hne
        (by intro c hc; injection hc with hc; rw [← hc]; decide)
        (by intro u hu c hc; injection hu with _ hu; rw [← hu] at hc; exact (hehead c hc).1)
      rw [hdot] at this
      simpa [Numeral.text, fracText, expText, Sign.text] using this
    · refine hgoal ⟨sign, int, some f, none⟩ ?_ (by simp [Numeral.readMantissa, hf])
      have := findFrom_dec sign (rest := expText exp ++ rest) h1 hfd hf (fun c hc => (hehead c hc).1)
      simpa [Numeral.text, fracText, expText, Sign.text] using this

/-! ## C35 -/

/-- Numerals with separators in front of them. -/
def piecesText (ps : List (Str × Numeral)) (tail : Str) : Str :=
  ps.foldr (fun p t => p.1 ++ (p.2.text ++ t)) tail

/-- Exact result for every list of numerals with something between them. -/
theorem numbers_exact (ps : List (Str × Numeral)) (tail : Str) (hn : ∀ p ∈ ps, p.2.Ok)
    (hs : ∀ p ∈ ps, p.1 ≠ [] ∧ ∀ c ∈ p.1, SepChar c) (ht : ∀ c ∈ tail, SepChar c) :
    findAll matchNumber (piecesText ps tail) = ps.flatMap fun p => p.2.reads.map Numeral.text := by
  unfold findAll
  have htail : findFrom matchNumber 0 tail = [] := by
    have := findFrom_seps ht []
    simpa [findFrom] using this
  have hhead : ∀ qs : List (Str × Numeral), (∀ p ∈ qs, p.1 ≠ [] ∧ ∀ c ∈ p.1, SepChar c) →
      ∀ c, (piecesText qs tail).head? = some c → SepChar c := by
    intro qs hq c hc
    cases qs with
    | nil => exact ht c (List.mem_of_mem_head? hc)
    | cons q qs =>
      obtain ⟨hne, hsep⟩ := hq q (by simp)
      obtain ⟨d, s, hd⟩ := List.exists_cons_of_ne_nil hne
      rw [piecesText, List.foldr_cons, hd, List.cons_append] at hc
      injection hc with hc
      rw [← hc]
      exact hsep d (by rw [hd]; simp)
  induction ps with
  | nil => exact htail
  | cons p ps ih =>
    have hps : ∀ q ∈ ps, q.1 ≠ [] ∧ ∀ c ∈ q.1, SepChar c := fun q hq => hs q (List.mem_cons_of_mem _ hq)
    rw [piecesText, List.foldr_cons, findFrom_seps (hs p (by simp)).2]
    have := numeral_reads p.2 (hn p (by simp)) (piecesText ps tail) (hhead ps hps)
    rw [piecesText] at this
    rw [this, List.flatMap_cons]
    congr 1
    exact ih (fun q hq => hn q (List.mem_cons_of_mem _ hq)) hps

theorem natVal_append_nil (s : Str) : natVal (s ++ []) = natVal s := by rw [List.append_nil]

/-- What is read from a numeral has the value of the numeral if and only if there is no exponent,
and the sign is not minus or the number has digits behind the point or is zero. -/
theorem number_read_iff (n : Numeral) :
    n.reads.map Numeral.value = [n.value] ↔
      n.exp = none ∧ (n.sign ≠ .minus ∨ (∃ f, n.frac = some f ∧ f ≠ []) ∨ natVal n.int = 0) := by
  obtain ⟨sign, int, frac, exp⟩ := n
  cases exp with
  | some x => simp [Numeral.reads]
  | none =>
    have hfr : (frac = none ∨ frac = some []) ∨ ∃ f, frac = some f ∧ f ≠ [] := by
      cases frac with
      | none => exact .inl (.inl rfl)
      | some f =>
        by_cases hf : f = []
        · exact .inl (.inr (by rw [hf]))
        · exact .inr ⟨f, rfl, hf⟩
    rcases hfr with hfr | ⟨f, rfl, hf⟩
    · have hno : ¬ ∃ f, frac = some f ∧ f ≠ [] := by
        rintro ⟨f, h1, h2⟩
        rcases hfr with h | h <;> rw [h] at h1
        · exact absurd h1 (by simp)
        · injection h1 with h1; exact h2 h1.symm
      have hg : frac.getD [] = [] := by rcases hfr with h | h <;> rw [h] <;> rfl
      simp only [Numeral.reads, Numeral.readMantissa, if_pos hfr, Numeral.value, hg, List.map_cons, List.map_nil,
        Option.getD_none, List.append_nil, List.length_nil, pow_zero, div_one, mul_one, hno, false_or, true_and,
        List.cons.injEq, and_true]
      cases sign with
      | none => simp
      | plus => simp [Sign.value]
      | minus =>
        simp only [Sign.value, ne_eq, not_true_eq_false, false_or]
        constructor
        · intro h
          have h' : (natVal int : ℚ) + natVal int = 0 := by linarith
          have : ((natVal int + natVal int : ℕ) : ℚ) = ((0 : ℕ) : ℚ) := by push_cast; exact h'
          have := Nat.cast_injective this
          omega
        · intro h; rw [h]; simp
    · have h1 : ¬ ((some f : Option Str) = none ∨ (some f : Option Str) = some []) := by simp [hf]
      simp only [Numeral.reads, Numeral.readMantissa, if_neg h1, Numeral.value, List.map_cons, List.map_nil]
      simp [hf]

/-- Read with the right value. -/
def Numeral.Plain (n : Numeral) : Prop :=
  n.exp = none ∧ (n.sign ≠ .minus ∨ (∃ f, n.frac = some f ∧ f ≠ []) ∨ natVal n.int = 0)

theorem reads_length_le (ns : List Numeral) : ns.length ≤ (ns.flatMap Numeral.reads).length := by
  induction ns with
  | nil => exact Nat.le_refl _
  | cons n ns ih =>
    rw [List.flatMap_cons, List.length_append, Numeral.reads]
    simp only [List.length_cons]
    omega

/-- All numbers of a list are read correctly exactly if each of them is plain. -/
theorem reads_iff (ns : List Numeral) :
    (ns.flatMap Numeral.reads).map Numeral.value = ns.map Numeral.value ↔ ∀ n ∈ ns, n.Plain := by
  induction ns with
  | nil => simp
  | cons n ns ih =>
    rw [List.flatMap_cons, List.map_append, List.forall_mem_cons]
    constructor
    · intro h
      have hn : n.Plain := by
        refine (number_read_iff n).1 ?_
        cases he : n.exp with
        | none =>
          have hr : n.reads = [n.readMantissa] := by rw [Numeral.reads, he]
          rw [hr] at h ⊢
          injection h with h _
          rw [List.map_cons, List.map_nil, h]
        | some x =>
          have hl := congrArg List.length h
          have := reads_length_le ns
          obtain ⟨m, s, d⟩ := x
          rw [Numeral.reads, he] at hl
          simp only [List.length_append, List.length_map, List.length_cons, List.length_nil] at hl
          omega
      refine ⟨hn, ih.1 ?_⟩
      rw [(number_read_iff n).2 hn] at h
      injection h
    · rintro ⟨h1, h2⟩
      rw [(number_read_iff n).2 h1, ih.2 h2]
      rfl

theorem findSub_first {sub : Str} (pre rest : Str) (hne : sub ≠ []) (hno : ∀ i < pre.length, ¬ sub <+: (pre ++ (sub ++ rest)).drop i) :
    findSub sub (pre ++ (sub ++ rest)) = some pre.length := by
  induction pre with
  | nil =>
    obtain ⟨c, t, rfl⟩ := List.exists_cons_of_ne_nil hne
    rw [List.nil_append, List.cons_append, findSub, if_pos]
    · rfl
    · rw [List.isPrefixOf_iff_prefix]
      exact ⟨rest, by simp⟩
  | cons c pre ih =>
    rw [List.cons_append, findSub, if_neg, ih]
    · rfl
    · intro i hi
      have := hno (i + 1) (by simpa using hi)
      simpa using this
    · rw [List.isPrefixOf_iff_prefix]
      have := hno 0 (by simp)
      simpa using this

theorem findSub_char {c : Char} (pre rest : Str) (hno : c ∉ pre) : findSub [c] (pre ++ c :: rest) = some pre.length := by
  refine findSub_first (sub := [c]) pre rest (by simp) ?_
  intro i hi h
  obtain ⟨t, ht⟩ := h
  have hd : (pre ++ ([c] ++ rest)).drop i = pre.drop i ++ ([c] ++ rest) := List.drop_append_of_le_length (by omega)
  rw [hd, List.drop_eq_getElem_cons hi] at ht
  injection ht with ht _
  exact hno (ht ▸ List.getElem_mem hi)

theorem sliceFrom_nat (s : Str) (n : Nat) (h : n ≤ s.length) : sliceFrom s (n : Int) = s.drop n := by
  unfold sliceFrom clip
  rw [if_neg (by omega)]
  simp only [Int.toNat_natCast]
  rw [Nat.min_eq_left h]

/-- The numbers of an element line are searched behind the first equals sign that follows the
first `a(`. -/
theorem numberTexts_line (pre mid rest : Str)
    (hfirst : ∀ i < pre.length, ¬ "a(".toList <+: (pre ++ ("a(".toList ++ (mid ++ '=' :: rest))).drop i) (hmid : '=' ∉ mid) :
    numberTexts (pre ++ ("a(".toList ++ (mid ++ '=' :: rest))) = findAll matchNumber rest := by
  have h1 := findSub_first (sub := "a(".toList) pre (mid ++ '=' :: rest) (by decide) hfirst
  have h2 : findSub "=".toList ("a(".toList ++ (mid ++ '=' :: rest)) = some (2 + mid.length) := by
    have := findSub_char (c := '=') ("a(".toList ++ mid) rest (by
      rw [List.mem_append]
      rintro (h | h)
      · exact absurd h (by decide)
      · exact hmid h)
    rw [List.append_assoc] at this
    rw [show "=".toList = ['='] by decide, this, List.length_append]
    rfl
  have h3 : sliceFrom (pre ++ ("a(".toList ++ (mid ++ '=' :: rest))) (pre.length : Int) = "a(".toList ++ (mid ++ '=' :: rest) := by
    rw [sliceFrom_nat _ _ (by simp)]
    simp
  have h4 : sliceFrom (pre ++ ("a(".toList ++ (mid ++ '=' :: rest))) ((2 + mid.length : Nat) + (pre.length : Int)) = '=' :: rest := by
    rw [← Nat.cast_add, sliceFrom_nat _ _ (by
      rw [List.length_append, List.length_append, List.length_append, show "a(".toList.length = 2 by decide]
      omega)]
    rw [Nat.add_comm, ← List.drop_drop, List.drop_left, ← List.drop_drop]
    rw [show (2 : Nat) = "a(".toList.length by decide, List.drop_left, List.drop_left]
  unfold numberTexts pyFind
  rw [h1]
  simp only
  rw [h3, h2]
  simp only
  rw [h4]
  unfold findAll
  exact findFrom_sep ⟨by decide, by decide, by decide, by decide⟩ rest

/-- An element line: `… a(…)= n₁ n₂ …`. -/
structure NumberLine (pre mid : Str) (ps : List (Str × Numeral)) (tail : Str) : Prop where
  first : ∀ i < pre.length, ¬ "a(".toList <+: (pre ++ ("a(".toList ++ (mid ++ '=' :: piecesText ps tail))).drop i
  mid : '=' ∉ mid
  ok : ∀ p ∈ ps, p.2.Ok
  seps : ∀ p ∈ ps, p.1 ≠ [] ∧ ∀ c ∈ p.1, SepChar c
  tail : ∀ c ∈ tail, SepChar c

/-- C35 for numbers without exponent that have digits behind the point or no minus sign: the
parameters are the numbers of the line in their order. Missing: all others, see `numbers_fails`. -/
theorem numbers_partial (F : FNums R) {pre mid tail : Str} {ps : List (Str × Numeral)} (hl : NumberLine pre mid ps tail)
    (hp : ∀ p ∈ ps, p.2.Plain) {type : Nat} {names : List Str} (hnames : parameterNames type = some names) :
    ∃ ns : List Numeral, ns.map Numeral.value = ps.map (fun p => p.2.value) ∧
      elementParameters F (pre ++ ("a(".toList ++ (mid ++ '=' :: piecesText ps tail))) type =
        .ok (names.zip (ns.map fun n => F.float n.text)) := by
  refine ⟨(ps.map Prod.snd).flatMap Numeral.reads, ?_, ?_⟩
  · rw [(reads_iff (ps.map Prod.snd)).2 (by simpa using fun n s h => hp (s, n) h), List.map_map]
    rfl
  · unfold elementParameters
    rw [hnames, numberTexts_line pre mid _ hl.first hl.mid, numbers_exact ps tail hl.ok hl.seps hl.tail]
    simp only [List.flatMap_map, List.map_flatMap, List.map_map]
    rfl

/-- C35 fails for every line that has another number: the list of numbers read is not the list of
numbers written. -/
theorem numbers_fails {pre mid tail : Str} {ps : List (Str × Numeral)} (hl : NumberLine pre mid ps tail)
    (hp : ∃ p ∈ ps, ¬ p.2.Plain) :
    ∃ ns : List Numeral, numberTexts (pre ++ ("a(".toList ++ (mid ++ '=' :: piecesText ps tail))) = ns.map Numeral.text ∧
      (∀ n ∈ ns, n.exp = none) ∧ ns.map Numeral.value ≠ ps.map (fun p => p.2.value) := by
  refine ⟨(ps.map Prod.snd).flatMap Numeral.reads, ?_, ?_, ?_⟩
  · rw [numberTexts_line pre mid _ hl.first hl.mid, numbers_exact ps tail hl.ok hl.seps hl.tail]
    simp only [List.flatMap_map, List.map_flatMap]
  · intro n hn
    rw [List.mem_flatMap] at hn
    obtain ⟨m, _, hn⟩ := hn
    unfold Numeral.reads at hn
    rcases List.mem_cons.1 hn with rfl | hn
    · unfold Numeral.readMantissa
      split <;> rfl
    · cases he : m.exp with
      | none => rw [he] at hn; exact absurd hn (by simp)
      | some x =>
        rw [he] at hn
        simp only [List.mem_cons, List.not_mem_nil, or_false] at hn
        rw [hn]
  · obtain ⟨p, hp1, hp2⟩ := hp
    intro h
    refine hp2 ((reads_iff (ps.map Prod.snd)).1 ?_ p.2 (List.mem_map_of_mem hp1))
    rw [h, List.map_map]
    rfl

/-- A line with two numbers, the first with a sign. -/
example : NumberLine "cmt(002) quad nt(2)=3 ".toList "1,2)".toList
    [([' '], ⟨.minus, ['1'], some ['5'], none⟩), ([',', ' '], ⟨.none, ['1', '2'], none, none⟩)] "\n".toList := by
  refine ⟨by decide, by decide, ?_, ?_, ?_⟩
  · intro p hp
    fin_cases hp
    · exact ⟨by unfold Digits; decide, by rintro f ⟨⟩; unfold Digits; decide, .inl (by decide), by rintro m s d ⟨⟩⟩
    · exact ⟨by unfold Digits; decide, by rintro f ⟨⟩, .inl (by decide), by rintro m s d ⟨⟩⟩
  · unfold SepChar; decide
  · unfold SepChar; decide

example : numberTexts "cmt(002) quad nt(2)=3 a(1,2)= -1.5, 12\n".toList = ["-1.5".toList, "12".toList] := by decide +kernel

/-- Numbers that are not plain. -/
example : ¬ Numeral.Plain ⟨.minus, ['1', '0'], none, none⟩ := by unfold Numeral.Plain; decide

example : ¬ Numeral.Plain ⟨.none, ['1'], some ['5'], some ('e', .minus, ['3'])⟩ := by
  rintro ⟨h, _⟩
  exact absurd h (by decide)

end Verif.Trace
