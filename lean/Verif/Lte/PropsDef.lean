import Verif.Lte.Parser
import Verif.Lte.PropsRpn

/-!
# Element definitions (C34)

`name: type, k1=v1, k2=v2, ...` is read as the type and the given key/value pairs.
-/

namespace Verif.Lte

open Verif.Lattice

variable {R : Type}

/-! ## Specification -/

/-- How a value is to be read: the reverse Polish form of an expression is a number, text that
starts with a word that is no number is kept as it is. -/
inductive Reads (N : Nums R) : Str → PVal R → Prop
  | num {v : Str} {e : Expr} {x : R} : e.Plain → Spaced e.rpn (v.filter fun c => c ≠ '"' ∧ c ≠ '\'') →
      e.value N = .ok x → Reads N v (.num x)
  | text {t v : Str} : NumText t → N.parse t = none → (v = t ∨ ∃ r, v = t ++ ' ' :: r) →
      Reads N v (.str v)

/-- One parameter: text of the key, text of the value, meaning of the value. -/
structure Field (R : Type) where
  key : Str
  text : Str
  val : PVal R

/-- The parameter is plain: no `,`, `=` or `:` in key and value. -/
structure Field.Plain (N : Nums R) (p : Field R) : Prop where
  key : ∀ c ∈ p.key, c ≠ ',' ∧ c ≠ '=' ∧ c ≠ ':'
  text : ∀ c ∈ p.text, c ≠ ',' ∧ c ≠ '=' ∧ c ≠ ':'
  reads : Reads N p.text p.val

/-- `k1=v1,k2=v2,...` and the end of the line. -/
def fieldText (tail : Str) : List (Field R) → Str
  | [] => tail
  | [p] => p.key ++ '=' :: (p.text ++ tail)
  | p :: ps => p.key ++ '=' :: (p.text ++ ',' :: fieldText tail ps)

/-- `float` accepts no text with a comma in it. -/
def Nums.NoComma (N : Nums R) : Prop := ∀ s, ',' ∈ s → N.parse s = none

/-- White space that ends a line. -/
def LineEnd (tail : Str) : Prop := ∀ c ∈ tail, isSpace c = true ∧ c ≠ ' '

/-- The pairs that belong to a list of parameters. -/
def pairs (ps : List (Field R)) : List (Str × PVal R) := ps.map fun p => (strip p.key, p.val)

/-! ## Lemmas on text -/

theorem replaceFrom_skip (old new : Str) (k : Nat) (s : Str) :
    replaceFrom old new k s = replaceFrom old new 0 (s.drop k) := by
  induction s generalizing k with
  | nil => cases k <;> simp [replaceFrom]
  | cons c cs ih =>
    cases k with
    | zero => rfl
    | succ k => rw [replaceFrom, ih, List.drop_succ_cons]

theorem mem_replaceFrom {old : Str} (new : Str) (ho : old ≠ []) {c : Char} (hc : c ∉ old) (n : Nat) :
    ∀ s : Str, s.length ≤ n → c ∈ s → c ∈ replaceFrom old new 0 s := by
  induction n with
  | zero =>
    intro s hs h
    obtain rfl : s = [] := List.eq_nil_of_length_eq_zero (by omega)
    exact absurd h (by simp)
  | succ n ih =>
    intro s hs h
    cases s with
    | nil => exact absurd h (by simp)
    | cons d cs =>
      unfold replaceFrom
      by_cases hp : old.isPrefixOf (d :: cs) = true
      · rw [if_pos hp, replaceFrom_skip]
        obtain ⟨r, hr⟩ := List.isPrefixOf_iff_prefix.mp hp
        obtain ⟨o, os, rfl⟩ := List.exists_cons_of_ne_nil ho
        rw [List.cons_append] at hr
        injection hr with h1 h2
        have hd : cs.drop ((o :: os).length - 1) = r := by simp [← h2]
        rw [hd]
        refine List.mem_append.mpr (.inr (ih r ?_ ?_))
        · simp only [List.length_cons] at hs
          have := congrArg List.length h2
          simp only [List.length_append] at this
          omega
        · rw [← h1, ← h2, ← List.cons_append] at h
          rcases List.mem_append.mp h with h | h
          · exact absurd h hc
          · exact h
      · rw [if_neg hp]
        rcases List.mem_cons.mp h with h | h
        · subst h; simp
        · exact List.mem_cons_of_mem _ (ih cs (by simp at hs; omega) h)

theorem mem_dropWhile {p : Char → Bool} {c : Char} (hc : p c = false) {s : Str} (h : c ∈ s) :
    c ∈ s.dropWhile p := by
  induction s with
  | nil => exact absurd h (by simp)
  | cons d cs ih =>
    by_cases hd : p d = true
    · rw [List.dropWhile_cons_of_pos hd]
      rcases List.mem_cons.mp h with h | h
      · subst h; rw [hc] at hd; exact absurd hd (by simp)
      · exact ih h
    · rw [List.dropWhile_cons_of_neg hd]
      exact h

theorem mem_strip {c : Char} (hc : isSpace c = false) {s : Str} (h : c ∈ s) : c ∈ strip s := by
  unfold strip
  rw [List.mem_reverse]
  exact mem_dropWhile hc (List.mem_reverse.mpr (mem_dropWhile hc h))

theorem comma_cleanToken {w : Str} (h : ',' ∈ w) : ',' ∈ cleanToken w := by
  unfold cleanToken
  refine mem_strip (by decide) (mem_replaceFrom _ (by decide) (by decide) _ _ (le_refl _) ?_)
  unfold dropQuotes
  rw [List.mem_filter]
  exact ⟨h, by decide⟩

theorem splitChar_glue (c : Char) (a b : Str) : ∃ (ws us : List Str) (w u : Str),
    splitChar c a = ws ++ [w] ∧ splitChar c b = u :: us ∧ splitChar c (a ++ b) = ws ++ (w ++ u) :: us := by
  obtain ⟨u, us, hu⟩ := List.exists_cons_of_ne_nil (splitChar_ne_nil c b)
  induction a with
  | nil => exact ⟨[], us, [], u, rfl, hu, by simpa using hu⟩
  | cons d cs ih =>
    obtain ⟨ws, us', w, u', h1, h2, h3⟩ := ih
    by_cases hd : d = c
    · refine ⟨[] :: ws, us', w, u', ?_, h2, ?_⟩
      · rw [splitChar, if_pos hd, h1]; rfl
      · rw [List.cons_append, splitChar, if_pos hd, h3]; rfl
    · cases ws with
      | nil =>
        refine ⟨[], us', d :: w, u', ?_, h2, ?_⟩
        · rw [splitChar, if_neg hd, h1]; rfl
        · rw [List.cons_append, splitChar, if_neg hd, h3]; rfl
      | cons x xs =>
        refine ⟨(d :: x) :: xs, us', w, u', ?_, h2, ?_⟩
        · rw [splitChar, if_neg hd, h1]; rfl
        · rw [List.cons_append, splitChar, if_neg hd, h3]; rfl

theorem rpnLoop_append (N : Nums R) (a b : List Str) (stack : List R) :
    rpnLoop N (a ++ b) stack = (rpnLoop N a stack).bind fun st => rpnLoop N b st := by
  induction a generalizing stack with
  | nil => rfl
  | cons w ws ih =>
    simp only [List.cons_append, rpnLoop]
    cases rpnStep N stack (cleanToken w) with
    | ok st => exact ih st
    | error e => rfl

theorem rpnStep_comma (N : Nums R) (hN : N.NoComma) (stack : List R) {w : Str} (h : ',' ∈ w) :
    rpnStep N stack (cleanToken w) = .error .valueError := by
  have hc := comma_cleanToken h
  rw [rpnStep_num N stack (fun hh => by rw [hh] at hc; simp at hc) ?_, hN _ hc]
  intro hh
  have : ∀ o ∈ opWords, ',' ∉ o := by decide
  exact this _ hh hc

theorem parseRpn_comma_num (N : Nums R) (hN : N.NoComma) {v : Str} {x : R} (h : parseRpn N v = .ok x)
    (r : Str) : parseRpn N (v ++ ',' :: r) = .error .valueError := by
  obtain ⟨ws, us, w, u, h1, h2, h3⟩ := splitChar_glue ' ' v (',' :: r)
  have hu : ',' ∈ u := by
    rw [splitChar, if_neg (by decide)] at h2
    cases hs : splitChar ' ' r with
    | nil => exact absurd hs (splitChar_ne_nil _ _)
    | cons y ys => rw [hs] at h2; injection h2 with h2 _; rw [← h2]; simp
  unfold parseRpn at h ⊢
  rw [h1, rpnLoop_append] at h
  rw [h3, rpnLoop_append]
  cases hl : rpnLoop N ws [] with
  | error e => rw [hl] at h; exact absurd h (by simp [Except.bind])
  | ok st =>
    simp only [Except.bind, rpnLoop]
    rw [rpnStep_comma N hN st (List.mem_append.mpr (.inr hu))]

theorem prefix_of_append {old a b : Str} (hb : ∀ c ∈ b, c ∉ old) (h : old <+: a ++ b) : old <+: a := by
  rcases List.prefix_or_prefix_of_prefix h (List.prefix_append a b) with h1 | h1
  · exact h1
  · obtain ⟨r, rfl⟩ := h1
    cases r with
    | nil => simp
    | cons c cs =>
      rw [List.prefix_append_right_inj] at h
      obtain ⟨q, rfl⟩ := h
      exact absurd (show c ∈ a ++ c :: cs by simp) (hb c (by simp))

theorem replaceFrom_free {old : Str} (new : Str) (ho : old ≠ []) {b : Str} (hb : ∀ c ∈ b, c ∉ old) :
    replaceFrom old new 0 b = b := by
  induction b with
  | nil => rfl
  | cons c cs ih =>
    have hp : ¬ old.isPrefixOf (c :: cs) = true := by
      intro h
      have := prefix_of_append (a := []) hb (by simpa using List.isPrefixOf_iff_prefix.mp h)
      exact ho (List.prefix_nil.mp this)
    rw [replaceFrom, if_neg hp, ih (fun x hx => hb x (by simp [hx]))]

theorem replaceFrom_append {old : Str} (new : Str) (ho : old ≠ []) {b : Str} (hb : ∀ c ∈ b, c ∉ old)
    (n : Nat) : ∀ a : Str, a.length ≤ n →
      replaceFrom old new 0 (a ++ b) = replaceFrom old new 0 a ++ b := by
  induction n with
  | zero =>
    intro a ha
    obtain rfl : a = [] := List.eq_nil_of_length_eq_zero (by omega)
    simpa [replaceFrom] using replaceFrom_free new ho hb
  | succ n ih =>
    intro a ha
    cases a with
    | nil => simpa [replaceFrom] using replaceFrom_free new ho hb
    | cons d cs =>
      rw [List.cons_append, replaceFrom, replaceFrom]
      by_cases hp : old.isPrefixOf (d :: cs) = true
      · have hp2 : old.isPrefixOf (d :: (cs ++ b)) = true := by
          rw [List.isPrefixOf_iff_prefix] at hp ⊢
          exact hp.trans (List.prefix_append (d :: cs) b)
        rw [if_pos hp, if_pos hp2, replaceFrom_skip, replaceFrom_skip old new _ cs]
        have hl : old.length - 1 ≤ cs.length := by
          have := (List.isPrefixOf_iff_prefix.mp hp).length_le
          simp only [List.length_cons] at this
          omega
        rw [List.drop_append_of_le_length hl, ih _ (by simp at ha ⊢; omega), List.append_assoc]
      · have hp2 : ¬ old.isPrefixOf (d :: (cs ++ b)) = true := by
          rw [List.isPrefixOf_iff_prefix] at hp ⊢
          exact fun h => hp (prefix_of_append (a := d :: cs) hb h)
        rw [if_neg hp, if_neg hp2, ih cs (by simp at ha; omega), List.cons_append]

theorem dropWhile_append_all {p : Char → Bool} {a b : Str} (h : ∀ c ∈ a, p c = true) :
    (a ++ b).dropWhile p = b.dropWhile p := by
  induction a with
  | nil => rfl
  | cons c cs ih =>
    rw [List.cons_append, List.dropWhile_cons_of_pos (h c (by simp)), ih (fun x hx => h x (by simp [hx]))]

theorem dropWhile_all {p : Char → Bool} {a : Str} (h : ∀ c ∈ a, p c = true) : a.dropWhile p = [] := by
  have := dropWhile_append_all (b := []) h
  simpa using this

theorem dropWhile_append_some {p : Char → Bool} {a b : Str} (h : a.dropWhile p ≠ []) :
    (a ++ b).dropWhile p = a.dropWhile p ++ b := by
  induction a with
  | nil => exact absurd rfl h
  | cons c cs ih =>
    by_cases hc : p c = true
    · rw [List.dropWhile_cons_of_pos hc] at h
      rw [List.cons_append, List.dropWhile_cons_of_pos hc, List.dropWhile_cons_of_pos hc, ih h]
    · rw [List.cons_append, List.dropWhile_cons_of_neg hc, List.dropWhile_cons_of_neg hc, List.cons_append]

/-- Trailing white space does not matter to `strip`. -/
theorem strip_append_space {a b : Str} (h : ∀ c ∈ b, isSpace c = true) : strip (a ++ b) = strip a := by
  unfold strip
  by_cases ha : a.dropWhile isSpace = []
  · have hall : ∀ c ∈ a, isSpace c = true := by
      intro c hc
      by_contra hn
      have := mem_dropWhile (by simpa using hn) hc
      rw [ha] at this
      exact absurd this (by simp)
    rw [dropWhile_append_all hall, dropWhile_all h, ha]
  · rw [dropWhile_append_some ha, List.reverse_append,
      dropWhile_append_all (fun c hc => h c (List.mem_reverse.mp hc))]

theorem cleanToken_tail {tail : Str} (ht : LineEnd tail) (w : Str) : cleanToken (w ++ tail) = cleanToken w := by
  have hq : dropQuotes tail = tail := dropQuotes_self
    ⟨fun h => by have := (ht _ h).1; revert this; decide, fun h => by have := (ht _ h).1; revert this; decide⟩
  unfold cleanToken replaceAll
  rw [show dropQuotes (w ++ tail) = dropQuotes w ++ dropQuotes tail from List.filter_append .., hq,
    replaceFrom_append _ (by decide) ?_ _ _ (le_refl _), strip_append_space (fun c hc => (ht c hc).1)]
  intro c hc hm
  have h1 := (ht c hc).1
  have : ∀ c ∈ "pi".toList, isSpace c = false := by decide
  rw [this c hm] at h1
  exact absurd h1 (by simp)

theorem parseRpn_tail (N : Nums R) {tail : Str} (ht : LineEnd tail) (v : Str) :
    parseRpn N (v ++ tail) = parseRpn N v := by
  obtain ⟨ws, us, w, u, h1, h2, h3⟩ := splitChar_glue ' ' v tail
  rw [splitChar_none (fun h => (ht _ h).2 rfl)] at h2
  injection h2 with hu hus
  subst hu; subst hus
  unfold parseRpn
  rw [h1, h3, rpnLoop_append, rpnLoop_append]
  simp only [rpnLoop, cleanToken_tail ht]

theorem parseRpn_comma_text (N : Nums R) (hN : N.NoComma) {t v : Str} (ht : NumText t)
    (hn : N.parse t = none) (hv : v = t ∨ ∃ r, v = t ++ ' ' :: r) (r : Str) :
    parseRpn N (v ++ ',' :: r) = .error .valueError := by
  rcases hv with rfl | ⟨q, rfl⟩
  · obtain ⟨ws, us, w, u, h1, h2, h3⟩ := splitChar_glue ' ' v (',' :: r)
    have hsp : ' ' ∉ v := fun h => by have := ht.space ' ' h; simp [isSpace] at this
    have hu : ',' ∈ u := by
      rw [splitChar, if_neg (by decide)] at h2
      cases hs : splitChar ' ' r with
      | nil => exact absurd hs (splitChar_ne_nil _ _)
      | cons y ys => rw [hs] at h2; injection h2 with h2 _; rw [← h2]; simp
    rw [splitChar_none hsp] at h1
    have hws : ws = [] := by
      cases ws with
      | nil => rfl
      | cons a as => simp at h1
    subst hws
    unfold parseRpn
    rw [h3, List.nil_append, rpnLoop, rpnStep_comma N hN [] (List.mem_append.mpr (.inr hu))]
  · rw [List.append_assoc, List.cons_append]
    exact (rpn_reject N t (q ++ ',' :: r) ht hn).2

theorem partitionChar_some {c : Char} {a : Str} (h : c ∉ a) (b : Str) :
    partitionChar c (a ++ c :: b) = some (a, b) := by
  have ht : ∀ a : Str, c ∉ a → (a ++ c :: b).takeWhile (· ≠ c) = a ∧
      ((a ++ c :: b).dropWhile (· ≠ c)).tail = b := by
    intro a
    induction a with
    | nil => intro _; simp
    | cons d ds ih =>
      intro hd
      simp only [List.mem_cons, not_or] at hd
      have hdc : decide (d ≠ c) = true := by simpa using fun hh => hd.1 hh.symm
      rw [List.cons_append, List.takeWhile_cons_of_pos (by exact hdc), List.dropWhile_cons_of_pos (by exact hdc)]
      exact ⟨by rw [(ih hd.2).1], (ih hd.2).2⟩
  unfold partitionChar
  rw [if_pos (by simp), (ht a h).1, (ht a h).2]

theorem partitionChar_none {c : Char} {a : Str} (h : c ∉ a) : partitionChar c a = none := by
  unfold partitionChar
  rw [if_neg h]

theorem dset_new {K V : Type} [DecidableEq K] (d : Dict K V) (k : K) (v : V) (h : ∀ p ∈ d, p.1 ≠ k) :
    dset d k v = d ++ [(k, v)] := by
  induction d with
  | nil => rfl
  | cons p d ih =>
    rw [dset, if_neg (h p (by simp)), ih (fun q hq => h q (by simp [hq])), List.cons_append]

theorem findChar_none {c : Char} {s : Str} (h : c ∉ s) : findChar c s = none := by
  induction s with
  | nil => rfl
  | cons d ds ih =>
    simp only [List.mem_cons, not_or] at h
    rw [findChar, if_neg (fun hh => h.1 hh.symm), ih h.2]
    rfl

theorem findChar_some {c : Char} {a : Str} (h : c ∉ a) (b : Str) :
    findChar c (a ++ c :: b) = some a.length := by
  induction a with
  | nil => simp [findChar]
  | cons d ds ih =>
    simp only [List.mem_cons, not_or] at h
    rw [List.cons_append, findChar, if_neg (fun hh => h.1 hh.symm), ih h.2]
    rfl

/-! ## The loop over the parameters -/

theorem paramLoop_end (N : Nums R) (fuel : Nat) {s : Str} (h : '=' ∉ s) (acc : Dict Str (PVal R)) :
    paramLoop N (fuel + 1) s acc = .ok acc := by
  rw [paramLoop, partitionChar_none h]

/-- The values of the parameters; text in the last place keeps the end of the line. -/
def lastTail (tail : Str) : List (Field R) → List (Str × PVal R)
  | [] => []
  | [p] => [(strip p.key, match p.val with
      | .num x => .num x
      | .str s => .str (s ++ tail))]
  | p :: ps => (strip p.key, p.val) :: lastTail tail ps

theorem lastTail_keys (tail : Str) (ps : List (Field R)) :
    (lastTail tail ps).map Prod.fst = ps.map fun p => strip p.key := by
  induction ps with
  | nil => rfl
  | cons p ps ih =>
    cases ps with
    | nil => rfl
    | cons q qs => simp only [lastTail, List.map_cons] at ih ⊢; rw [ih]

theorem tail_free {tail : Str} (ht : LineEnd tail) {c : Char} (hc : isSpace c = false) : c ∉ tail :=
  fun h => by rw [(ht c h).1] at hc; exact absurd hc (by simp)

theorem paramLoop_fields (N : Nums R) (hN : N.NoComma) {tail : Str} (ht : LineEnd tail)
    (ps : List (Field R)) : ∀ (fuel : Nat) (acc : Dict Str (PVal R)), (∀ p ∈ ps, p.Plain N) →
      (ps.map fun p => strip p.key).Nodup → (∀ p ∈ ps, ∀ q ∈ acc, q.1 ≠ strip p.key) →
      (fieldText tail ps).length < fuel →
      paramLoop N fuel (fieldText tail ps) acc = .ok (acc ++ lastTail tail ps) := by
  induction ps with
  | nil =>
    intro fuel acc _ _ _ hf
    obtain ⟨f, rfl⟩ : ∃ f, fuel = f + 1 := ⟨fuel - 1, by omega⟩
    rw [fieldText, paramLoop_end N f (tail_free ht (by decide)), lastTail, List.append_nil]
  | cons p ps ih =>
    intro fuel acc hp hd hacc hf
    obtain ⟨f, rfl⟩ : ∃ f, fuel = f + 1 := ⟨fuel - 1, by omega⟩
    have hpp := hp p (by simp)
    have hk : '=' ∉ p.key := fun h => (hpp.key _ h).2.1 rfl
    have hve : '=' ∉ p.text := fun h => (hpp.text _ h).2.1 rfl
    have hvc : ',' ∉ p.text := fun h => (hpp.text _ h).1 rfl
    have hnew : ∀ v, dset acc (strip p.key) v = acc ++ [(strip p.key, v)] :=
      fun v => dset_new acc _ v (fun q hq => hacc p (by simp) q hq)
    cases ps with
    | nil =>
      simp only [fieldText] at hf ⊢
      obtain ⟨g, rfl⟩ : ∃ g, f = g + 1 := ⟨f - 1, by simp at hf; omega⟩
      rw [paramLoop, partitionChar_some hk]
      have hend : '=' ∉ p.text ++ tail := by
        rw [List.mem_append, not_or]
        exact ⟨hve, tail_free ht (by decide)⟩
      simp only [parseRpn_tail N ht]
      obtain ⟨key, text, val⟩ := p
      have hr : Reads N text val := hpp.reads
      cases hr with
      | num h1 h2 h3 =>
        rw [rpn_value N _ h1 _ h2, h3]
        simp only [hnew, lastTail]
        exact paramLoop_end N g hend _
      | @text t _ h1 h2 h3 =>
        have hbad : parseRpn N text = .error .valueError := by
          rcases h3 with h3 | ⟨r, h3⟩
          · rw [h3]; exact (rpn_reject N t [] h1 h2).1
          · rw [h3]; exact (rpn_reject N t r h1 h2).2
        have hcm : ',' ∉ text ++ tail := by
          rw [List.mem_append, not_or]
          exact ⟨hvc, tail_free ht (by decide)⟩
        rw [hbad]
        simp only [partitionChar_none hcm, parseRpn_tail N ht, hbad, hnew, lastTail]
        exact paramLoop_end N g (by simp) _
    | cons q qs =>
      simp only [fieldText] at hf ⊢
      rw [paramLoop, partitionChar_some hk]
      simp only [partitionChar_some hvc]
      have hd' := List.nodup_cons.mp hd
      have hih : ∀ v, paramLoop N f (fieldText tail (q :: qs)) (acc ++ [(strip p.key, v)]) =
          .ok (acc ++ [(strip p.key, v)] ++ lastTail tail (q :: qs)) := by
        intro v
        refine ih f _ (fun x hx => hp x (by simp [List.mem_cons.mp hx])) hd'.2 ?_ ?_
        · intro x hx y hy
          rcases List.mem_append.mp hy with hy | hy
          · exact hacc x (List.mem_cons_of_mem _ hx) y hy
          · rw [List.mem_singleton.mp hy]
            intro heq
            exact hd'.1 (List.mem_map.mpr ⟨x, hx, heq.symm⟩)
        · simp only [List.length_append, List.length_cons] at hf
          omega
      have hl : lastTail tail (p :: q :: qs) = (strip p.key, p.val) :: lastTail tail (q :: qs) := rfl
      rw [hl]
      obtain ⟨key, text, val⟩ := p
      have hr : Reads N text val := hpp.reads
      cases hr with
      | num h1 h2 h3 =>
        have hok := rpn_value N _ h1 _ h2
        rw [h3] at hok
        rw [parseRpn_comma_num N hN hok]
        simp only [hok, hnew]
        rw [hih, List.append_assoc]; rfl
      | @text t _ h1 h2 h3 =>
        have hbad : parseRpn N text = .error .valueError := by
          rcases h3 with h3 | ⟨r, h3⟩
          · rw [h3]; exact (rpn_reject N t [] h1 h2).1
          · rw [h3]; exact (rpn_reject N t r h1 h2).2
        rw [parseRpn_comma_text N hN h1 h2 h3]
        simp only [hbad, hnew]
        rw [hih, List.append_assoc]; rfl

theorem colon_fields {N : Nums R} {tail : Str} (ht : LineEnd tail) (ps : List (Field R))
    (hp : ∀ p ∈ ps, p.Plain N) : ':' ∉ fieldText tail ps := by
  induction ps with
  | nil => exact tail_free ht (by decide)
  | cons p ps ih =>
    have h1 : ':' ∉ p.key := fun h => ((hp p (by simp)).key _ h).2.2 rfl
    have h2 : ':' ∉ p.text := fun h => ((hp p (by simp)).text _ h).2.2 rfl
    have h3 : ':' ∉ tail := tail_free ht (by decide)
    cases ps with
    | nil => simp [fieldText, h1, h2, h3]
    | cons q qs =>
      have := ih (fun x hx => hp x (List.mem_cons_of_mem _ hx))
      simp [fieldText, h1, h2] at this ⊢
      exact this

/-! ## C34 -/

/-- Position of the last colon, counted from the end. -/
theorem lastColon {ty : Str} (h : ':' ∉ ty) (name : Str) :
    findChar ':' (name ++ ':' :: ty).reverse = some ty.length := by
  have hr : (name ++ ':' :: ty).reverse = ty.reverse ++ ':' :: name.reverse := by simp
  rw [hr, findChar_some (fun hh => h (List.mem_reverse.mp hh)), List.length_reverse]

theorem lastColon_pos (name ty : Str) : (name ++ ':' :: ty).length - (ty.length + 1) = name.length := by
  simp

/-- Exact result for a definition with parameters: type, keys and values; only text in the last
place keeps the line end. -/
theorem definition_exact (N : Nums R) (hN : N.NoComma) (name ty tail : Str) (ps : List (Field R))
    (hname : ',' ∉ name) (hty : ',' ∉ ty ∧ ':' ∉ ty) (ht : LineEnd tail)
    (hp : ∀ p ∈ ps, p.Plain N) (hd : (ps.map fun p => strip p.key).Nodup) :
    findParameters N (name ++ ':' :: (ty ++ ',' :: fieldText tail ps)) =
      .ok (strip ty, lastTail tail ps) := by
  have hcol : ':' ∉ ty ++ ',' :: fieldText tail ps := by
    simp only [List.mem_append, List.mem_cons, not_or]
    exact ⟨hty.2, by decide, colon_fields ht ps hp⟩
  have hcom : findChar ',' (name ++ ':' :: (ty ++ ',' :: fieldText tail ps)) =
      some (name.length + (ty.length + 1)) := by
    have hx : name ++ ':' :: (ty ++ ',' :: fieldText tail ps) =
        (name ++ ':' :: ty) ++ ',' :: fieldText tail ps := by simp
    rw [hx, findChar_some (by simp [hname, hty.1])]
    simp
  have hdrop : (name ++ ':' :: (ty ++ ',' :: fieldText tail ps)).drop (name.length + (ty.length + 1) + 1) =
      fieldText tail ps := by
    have hx : name ++ ':' :: (ty ++ ',' :: fieldText tail ps) =
        (name ++ ':' :: ty ++ [',']) ++ fieldText tail ps := by simp
    rw [hx, List.drop_left' (by simp; omega)]
  have htake : ((name ++ ':' :: (ty ++ ',' :: fieldText tail ps)).take (name.length + (ty.length + 1))).drop
      (name.length + 1) = ty := by
    have hx : name ++ ':' :: (ty ++ ',' :: fieldText tail ps) =
        (name ++ ':' :: ty) ++ ',' :: fieldText tail ps := by simp
    rw [hx, List.take_left' (by simp)]
    have hy : name ++ ':' :: ty = (name ++ [':']) ++ ty := by simp
    rw [hy, List.drop_left' (by simp)]
  unfold findParameters
  simp only [hcom, hdrop, lastColon hcol, lastColon_pos, htake]
  rw [paramLoop_fields N hN ht ps _ [] hp hd (by simp) (by simp; omega), List.nil_append]

/-- C34 with the end of the line: the type and exactly the given pairs, in order, if the last
value is a number or nothing follows it. Missing: text at the end of a line, see
`definition_text_fails`, and definitions without parameters, see `definition_bare_partial`. -/
theorem definition_partial (N : Nums R) (hN : N.NoComma) (name ty tail : Str) (ps : List (Field R))
    (hname : ',' ∉ name) (hty : ',' ∉ ty ∧ ':' ∉ ty) (ht : LineEnd tail)
    (hp : ∀ p ∈ ps, p.Plain N) (hd : (ps.map fun p => strip p.key).Nodup)
    (hlast : tail = [] ∨ ∀ p, ps.getLast? = some p → ∃ x, p.val = .num x) :
    findParameters N (name ++ ':' :: (ty ++ ',' :: fieldText tail ps)) = .ok (strip ty, pairs ps) := by
  rw [definition_exact N hN name ty tail ps hname hty ht hp hd]
  have : lastTail tail ps = pairs ps := by
    clear hp hd
    induction ps with
    | nil => rfl
    | cons p ps ih =>
      cases ps with
      | nil =>
        obtain ⟨key, text, val⟩ := p
        rcases hlast with rfl | h
        · cases val <;> simp [lastTail, pairs]
        · obtain ⟨x, hx⟩ := h _ rfl
          obtain rfl : val = .num x := hx
          rfl
      | cons q qs =>
        have := ih (by
          rcases hlast with h | h
          · exact .inl h
          · exact .inr (fun x hx => h x (by rw [List.getLast?_cons_cons]; exact hx)))
        rw [show lastTail tail (p :: q :: qs) = (strip p.key, p.val) :: lastTail tail (q :: qs) from rfl, this]
        rfl
  rw [this]

/-- Text in the last place of a line with a newline is stored with the newline, so the pairs are
not the given ones: false for every such definition. -/
theorem definition_text_fails (N : Nums R) (hN : N.NoComma) (name ty tail : Str) (ps : List (Field R))
    (p : Field R) (s : Str) (hs : p.val = .str s)
    (hname : ',' ∉ name) (hty : ',' ∉ ty ∧ ':' ∉ ty) (ht : LineEnd tail) (hne : tail ≠ [])
    (hp : ∀ q ∈ ps ++ [p], q.Plain N) (hd : ((ps ++ [p]).map fun p => strip p.key).Nodup) :
    findParameters N (name ++ ':' :: (ty ++ ',' :: fieldText tail (ps ++ [p]))) =
        .ok (strip ty, pairs ps ++ [(strip p.key, .str (s ++ tail))]) ∧
      findParameters N (name ++ ':' :: (ty ++ ',' :: fieldText tail (ps ++ [p]))) ≠
        .ok (strip ty, pairs (ps ++ [p])) := by
  have hl : ∀ ps : List (Field R), lastTail tail (ps ++ [p]) = pairs ps ++ [(strip p.key, .str (s ++ tail))] := by
    intro ps
    induction ps with
    | nil => simp [lastTail, pairs, hs]
    | cons q qs ih =>
      cases qs with
      | nil => simp [lastTail, pairs, hs]
      | cons r rs =>
        rw [List.cons_append] at ih ⊢
        rw [List.cons_append]
        rw [show lastTail tail (q :: r :: (rs ++ [p])) = (strip q.key, q.val) :: lastTail tail (r :: (rs ++ [p])) from rfl, ih]
        rfl
  have h := definition_exact N hN name ty tail (ps ++ [p]) hname hty ht hp hd
  rw [hl] at h
  refine ⟨h, ?_⟩
  rw [h]
  intro heq
  injection heq with heq
  injection heq with _ heq
  simp only [pairs, List.map_append, List.map_cons, List.map_nil] at heq
  have := List.append_cancel_left heq
  simp [hs, hne] at this

/-- Exact result for a definition without parameters: the last character is dropped. -/
theorem definition_bare_exact (N : Nums R) (name ty : Str) (c : Char)
    (hname : ',' ∉ name ∧ '=' ∉ name) (hty : ∀ d ∈ ty ++ [c], d ≠ ',' ∧ d ≠ '=' ∧ d ≠ ':') :
    findParameters N (name ++ ':' :: (ty ++ [c])) = .ok (strip ty, []) := by
  have hcol : ':' ∉ ty ++ [c] := fun h => (hty _ h).2.2 rfl
  have hcom : ',' ∉ name ++ ':' :: (ty ++ [c]) := by
    rw [List.mem_append, List.mem_cons, not_or, not_or]
    exact ⟨hname.1, by decide, fun h => (hty _ h).1 rfl⟩
  have heq : '=' ∉ name ++ ':' :: (ty ++ [c]) := by
    rw [List.mem_append, List.mem_cons, not_or, not_or]
    exact ⟨hname.2, by decide, fun h => (hty _ h).2.1 rfl⟩
  have hlast : (name ++ ':' :: (ty ++ [c])).dropLast.drop (name.length + 1) = ty := by
    have hx : name ++ ':' :: (ty ++ [c]) = (name ++ [':'] ++ ty) ++ [c] := by simp
    rw [hx, List.dropLast_concat, List.drop_left' (by simp)]
  unfold findParameters
  simp only [findChar_none hcom, lastColon hcol, lastColon_pos, hlast]
  rw [paramLoop_end N _ heq]

/-- A definition without parameters that ends in white space gives the type and no parameters. -/
theorem definition_bare_partial (N : Nums R) (name ty : Str) (c : Char) (hc : isSpace c = true)
    (hname : ',' ∉ name ∧ '=' ∉ name) (hty : ∀ d ∈ ty ++ [c], d ≠ ',' ∧ d ≠ '=' ∧ d ≠ ':') :
    findParameters N (name ++ ':' :: (ty ++ [c])) = .ok (strip (ty ++ [c]), []) := by
  rw [definition_bare_exact N name ty c hname hty,
    strip_append_space (fun x hx => by rw [List.mem_singleton.mp hx]; exact hc)]

/-- Without white space at the end the last letter of the type is lost: the result is the type
without it, for every such definition. -/
theorem definition_bare_fails (N : Nums R) (name ty : Str) (c : Char) (hc : isSpace c = false)
    (hname : ',' ∉ name ∧ '=' ∉ name) (hty : ∀ d ∈ ty ++ [c], d ≠ ',' ∧ d ≠ '=' ∧ d ≠ ':') :
    findParameters N (name ++ ':' :: (ty ++ [c])) = .ok (strip ty, []) ∧ strip ty ≠ strip (ty ++ [c]) := by
  refine ⟨definition_bare_exact N name ty c hname hty, ?_⟩
  have hl : (strip ty).length ≤ (ty.dropWhile isSpace).length := by
    unfold strip
    rw [List.length_reverse]
    exact (List.dropWhile_sublist _).length_le.trans (by rw [List.length_reverse])
  have hs : strip (ty ++ [c]) = ty.dropWhile isSpace ++ [c] := by
    have hd : (ty ++ [c]).dropWhile isSpace = ty.dropWhile isSpace ++ [c] := by
      by_cases h : ty.dropWhile isSpace = []
      · have hall : ∀ d ∈ ty, isSpace d = true := by
          intro d hd
          by_contra hn
          have := mem_dropWhile (by simpa using hn) hd
          rw [h] at this
          exact absurd this (by simp)
        rw [dropWhile_append_all hall, h, List.dropWhile_cons_of_neg (by simp [hc])]
        rfl
      · exact dropWhile_append_some h
    unfold strip
    rw [hd, List.reverse_append]
    simp [List.dropWhile, hc]
  intro h
  have := congrArg List.length h
  rw [hs, List.length_append] at this
  simp only [List.length_cons, List.length_nil] at this
  omega

/-- A colon in a parameter: the type is lost, for every definition with a colon behind the first
comma. -/
theorem definition_colon_fails (N : Nums R) (name ty a b : Str) (ps : Dict Str (PVal R)) (type : Str)
    (hname : ',' ∉ name) (hty : ',' ∉ ty) (hb : ':' ∉ b)
    (h : findParameters N (name ++ ':' :: (ty ++ ',' :: (a ++ ':' :: b))) = .ok (type, ps)) : type = [] := by
  have hx : name ++ ':' :: (ty ++ ',' :: (a ++ ':' :: b)) = (name ++ ':' :: (ty ++ ',' :: a)) ++ ':' :: b := by
    simp
  have hc : findChar ',' (name ++ ':' :: (ty ++ ',' :: (a ++ ':' :: b))) = some (name ++ ':' :: ty).length := by
    rw [show name ++ ':' :: (ty ++ ',' :: (a ++ ':' :: b)) = (name ++ ':' :: ty) ++ ',' :: (a ++ ':' :: b) by simp,
      findChar_some (by simp [hname, hty])]
  have he : ((name ++ ':' :: (ty ++ ',' :: (a ++ ':' :: b))).take (name ++ ':' :: ty).length).drop
      ((name ++ ':' :: (ty ++ ',' :: a)).length + 1) = [] := by
    rw [List.drop_eq_nil_iff, List.length_take]
    simp only [List.length_append, List.length_cons]
    omega
  unfold findParameters at h
  rw [hx] at hc he h
  simp only [hc, lastColon hb, lastColon_pos, he] at h
  split at h
  · injection h with h
    injection h with h _
    exact h.symm
  · exact absurd h (by simp)

/-- `q1: quad, l=1 2 +, k1=abc, tilt="3"` with a newline meets the hypotheses of
`definition_partial`, for any numbers that know 1, 2 and 3 and not `abc`. -/
example (N : Nums R) (x y z : R) (h1 : N.parse "1".toList = some x) (h2 : N.parse "2".toList = some y)
    (h3 : N.parse "3".toList = some z) (h4 : N.parse "abc".toList = none) :
    ∃ ps : List (Field R), fieldText "\n".toList ps = " l=1 2 +, k1=abc, tilt=\"3\"\n".toList ∧
      pairs ps = [("l".toList, .num (N.add x y)), ("k1".toList, .str "abc".toList), ("tilt".toList, .num z)] ∧
      (∀ p ∈ ps, p.Plain N) ∧ (ps.map fun p => strip p.key).Nodup ∧
      ∀ p, ps.getLast? = some p → ∃ w, p.val = .num w := by
  refine ⟨[⟨" l".toList, "1 2 +".toList, .num (N.add x y)⟩, ⟨" k1".toList, "abc".toList, .str "abc".toList⟩,
    ⟨" tilt".toList, "\"3\"".toList, .num z⟩], rfl, rfl, ?_,
    (show ["l".toList, "k1".toList, "tilt".toList].Nodup by decide), ?_⟩
  · intro p hp
    simp only [List.mem_cons, List.not_mem_nil, or_false] at hp
    rcases hp with rfl | rfl | rfl
    · refine ⟨(show ∀ c ∈ " l".toList, c ≠ ',' ∧ c ≠ '=' ∧ c ≠ ':' by decide),
        (show ∀ c ∈ "1 2 +".toList, c ≠ ',' ∧ c ≠ '=' ∧ c ≠ ':' by decide), .num (e := .add (.num "1".toList) (.num "2".toList)) ⟨?_, ?_⟩ ?_ ?_⟩
      · exact ⟨by decide, by decide, by decide, by decide, by decide⟩
      · exact ⟨by decide, by decide, by decide, by decide, by decide⟩
      · exact .cons (w := "1".toList) (.cons (w := "2".toList) (.last (w := "+".toList)))
      · simp only [Expr.value, h1, h2]; rfl
    · exact ⟨(show ∀ c ∈ " k1".toList, c ≠ ',' ∧ c ≠ '=' ∧ c ≠ ':' by decide),
        (show ∀ c ∈ "abc".toList, c ≠ ',' ∧ c ≠ '=' ∧ c ≠ ':' by decide), .text (t := "abc".toList)
        ⟨by decide, by decide, by decide, by decide, by decide⟩ h4 (.inl rfl)⟩
    · refine ⟨(show ∀ c ∈ " tilt".toList, c ≠ ',' ∧ c ≠ '=' ∧ c ≠ ':' by decide),
        (show ∀ c ∈ "\"3\"".toList, c ≠ ',' ∧ c ≠ '=' ∧ c ≠ ':' by decide), .num (e := .num "3".toList) ?_ ?_ ?_⟩
      · exact ⟨by decide, by decide, by decide, by decide, by decide⟩
      · exact .last (w := "3".toList)
      · simp only [Expr.value, h3]
  · intro p hp
    simp only [List.getLast?_cons_cons, List.getLast?_singleton, Option.some.injEq] at hp
    subst hp
    exact ⟨z, rfl⟩

/-- `d1: drift` and `d1: marker, t=a:b` meet the hypotheses of the theorems above. -/
example : (',' ∉ "d1".toList ∧ '=' ∉ "d1".toList) ∧
    (∀ d ∈ " drif".toList ++ ['t'], d ≠ ',' ∧ d ≠ '=' ∧ d ≠ ':') ∧ isSpace 't' = false ∧
    isSpace '\n' = true ∧ LineEnd "\n".toList ∧ ':' ∉ "b".toList := by
  refine ⟨by decide, by decide, by decide, by decide, ?_, by decide⟩
  unfold LineEnd
  decide

example (N : Nums R) : findParameters N "d1: drift".toList = .ok ("drif".toList, []) := by
  have := definition_bare_exact N "d1".toList " drif".toList 't' (by decide) (by decide)
  have e : strip " drif".toList = "drif".toList := by decide
  rw [e] at this
  exact this

example (N : Nums R) : findParameters N "d1: drift".toList = .ok ("drif".toList, []) := by
  have := (definition_bare_fails N "d1".toList " drif".toList 't' (by decide) (by decide) (by decide)).1
  have e : strip " drif".toList = "drif".toList := by decide
  rw [e] at this
  exact this

example (N : Nums R) : findParameters N "d1: drift\n".toList = .ok ("drift".toList, []) := by
  have := definition_bare_partial N "d1".toList " drift".toList '\n' (by decide) (by decide) (by decide)
  have e : strip (" drift".toList ++ ['\n']) = "drift".toList := by decide
  rw [e] at this
  exact this

end Verif.Lte
