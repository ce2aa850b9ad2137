import Verif.Lte.PropsSanitize

/-!
# Stored variables (C33)
-/

namespace Verif.Lte

open Verif.Lattice

variable {R : Type}

/-! ## Specification -/

/-- A piece of a line: a word or one character between words. -/
inductive Tok
  | word (w : Str)
  | sep (c : Char)

/-- The text of a line. -/
def tokText : List Tok → Str
  | [] => []
  | .word w :: ts => w ++ tokText ts
  | .sep c :: ts => c :: tokText ts

/-- Words are made of word characters (`W`), other characters are not, and two words do not
touch. -/
def TokOk (W : Char → Bool) : List Tok → Prop
  | [] => True
  | .sep c :: ts => W c = false ∧ TokOk W ts
  | [.word w] => ∀ c ∈ w, W c = true
  | .word w :: .sep d :: ts => (∀ c ∈ w, W c = true) ∧ W d = false ∧ TokOk W ts
  | .word _ :: .word _ :: _ => False

/-- Replace every word. -/
def tokMap (f : Str → Str) : List Tok → List Tok
  | [] => []
  | .word w :: ts => .word (f w) :: tokMap f ts
  | .sep c :: ts => .sep c :: tokMap f ts

/-- The words of a line. -/
def tokWords : List Tok → List Str
  | [] => []
  | .word w :: ts => w :: tokWords ts
  | .sep _ :: ts => tokWords ts

/-- What a word stands for. -/
def meaning (N : Nums R) (vars : Dict Str R) (w : Str) : Str :=
  match vars.find? fun kv => kv.1 = w with
  | some kv => N.toText kv.2
  | none => w

/-- Names of variables that can be found as words: not empty, made of word characters, values
made of word characters, no name inside the text of a value. -/
structure VarsOk (N : Nums R) (W : Char → Bool) (vars : Dict Str R) : Prop where
  ne : ∀ kv ∈ vars, kv.1 ≠ []
  key : ∀ kv ∈ vars, ∀ c ∈ kv.1, W c = true
  val : ∀ kv ∈ vars, ∀ c ∈ N.toText kv.2, W c = true
  clash : ∀ kv ∈ vars, ∀ kv' ∈ vars, hasSub kv.1 (N.toText kv'.2) = false
  nodup : (vars.map Prod.fst).Nodup

/-! ## Lemmas -/

theorem TokOk.tail {W : Char → Bool} {t : Tok} {ts : List Tok} (h : TokOk W (t :: ts)) : TokOk W ts := by
  cases t with
  | sep c => exact h.2
  | word w =>
    cases ts with
    | nil => trivial
    | cons u us =>
      cases u with
      | sep d => exact ⟨h.2.1, h.2.2⟩
      | word v => exact absurd h (by simp [TokOk])

theorem TokOk.word {W : Char → Bool} {w : Str} {ts : List Tok} (h : TokOk W (.word w :: ts)) :
    (∀ c ∈ w, W c = true) ∧ ∀ d, (tokText ts).head? = some d → W d = false := by
  cases ts with
  | nil => exact ⟨h, by simp [tokText]⟩
  | cons u us =>
    cases u with
    | sep d => exact ⟨h.1, by intro x hx; simp [tokText] at hx; rw [← hx]; exact h.2.1⟩
    | word v => exact absurd h (by simp [TokOk])

theorem prefix_word {W : Char → Bool} {key a b : Str} (hk : ∀ c ∈ key, W c = true)
    (hb : ∀ d, b.head? = some d → W d = false) (h : key <+: a ++ b) : key <+: a := by
  rcases List.prefix_or_prefix_of_prefix h (List.prefix_append a b) with h1 | h1
  · exact h1
  · obtain ⟨r, rfl⟩ := h1
    cases r with
    | nil => simp
    | cons c cs =>
      rw [List.prefix_append_right_inj] at h
      obtain ⟨q, rfl⟩ := h
      have h1 := hb c (by simp)
      rw [hk c (by simp)] at h1
      exact absurd h1 (by simp)

/-- Nothing is replaced in a word without the name in it. -/
theorem replaceFrom_word {W : Char → Bool} {key : Str} (new : Str) (hne : key ≠ [])
    (hk : ∀ c ∈ key, W c = true) {a b : Str} (ha : hasSub key a = false)
    (hb : ∀ d, b.head? = some d → W d = false) :
    replaceFrom key new 0 (a ++ b) = a ++ replaceFrom key new 0 b := by
  induction a with
  | nil => rfl
  | cons c cs ih =>
    simp only [hasSub, Bool.or_eq_false_iff] at ha
    have hp : ¬ key.isPrefixOf (c :: (cs ++ b)) = true := by
      intro h
      have := prefix_word hk hb (a := c :: cs) (List.isPrefixOf_iff_prefix.mp h)
      rw [← List.isPrefixOf_iff_prefix, ha.1] at this
      exact absurd this (by simp)
    rw [List.cons_append, replaceFrom, if_neg hp, ih ha.2]
    rfl

theorem replaceFrom_sep {W : Char → Bool} {key : Str} (new : Str) (hne : key ≠ [])
    (hk : ∀ c ∈ key, W c = true) {d : Char} (hd : W d = false) (b : Str) :
    replaceFrom key new 0 (d :: b) = d :: replaceFrom key new 0 b := by
  have hp : ¬ key.isPrefixOf (d :: b) = true := by
    intro h
    obtain ⟨c, cs, rfl⟩ := List.exists_cons_of_ne_nil hne
    simp only [List.isPrefixOf, Bool.and_eq_true, beq_iff_eq] at h
    have := hk c (by simp)
    rw [h.1, hd] at this
    exact absurd this (by simp)
  rw [replaceFrom, if_neg hp]

theorem replaceFrom_key {key : Str} (new : Str) (hne : key ≠ []) (b : Str) :
    replaceFrom key new 0 (key ++ b) = new ++ replaceFrom key new 0 b := by
  obtain ⟨c, cs, rfl⟩ := List.exists_cons_of_ne_nil hne
  have hp : (c :: cs).isPrefixOf (c :: (cs ++ b)) = true :=
    List.isPrefixOf_iff_prefix.mpr (List.prefix_append (c :: cs) b)
  rw [List.cons_append, replaceFrom, if_pos hp, replaceFrom_skip]
  simp

/-- One variable in all words. -/
theorem replaceFrom_toks {W : Char → Bool} {key : Str} (new : Str) (hne : key ≠ [])
    (hk : ∀ c ∈ key, W c = true) (ts : List Tok) (ht : TokOk W ts)
    (hw : ∀ w ∈ tokWords ts, hasSub key w = true → w = key) :
    replaceFrom key new 0 (tokText ts) = tokText (tokMap (fun w => if w = key then new else w) ts) := by
  induction ts with
  | nil => rfl
  | cons t ts ih =>
    have htail := ih ht.tail (by
      intro w hm
      cases t with
      | sep c => exact hw w hm
      | word v => exact hw w (by simp [tokWords, hm]))
    cases t with
    | sep c =>
      rw [tokText, replaceFrom_sep new hne hk ht.1, htail]
      rfl
    | word w =>
      obtain ⟨h1, h2⟩ := ht.word
      rw [tokText, tokMap, tokText]
      by_cases hwk : w = key
      · rw [if_pos hwk, hwk, replaceFrom_key new hne, htail]
      · rw [if_neg hwk, replaceFrom_word new hne hk ?_ h2, htail]
        by_contra hs
        exact hwk (hw w (by simp [tokWords]) (by simpa using hs))

theorem findSub_zero {key s : Str} (hne : key ≠ []) : findSub key s = some 0 ↔ key <+: s := by
  cases s with
  | nil =>
    constructor
    · intro h
      have : key = [] := by
        by_contra hk
        simp [findSub, hk] at h
      exact absurd this hne
    · intro h; exact absurd (List.prefix_nil.mp h) hne
  | cons c cs =>
    unfold findSub
    by_cases h : key.isPrefixOf (c :: cs) = true
    · rw [if_pos h]
      exact ⟨fun _ => List.isPrefixOf_iff_prefix.mp h, fun _ => rfl⟩
    · rw [if_neg h]
      constructor
      · intro hh
        cases hf : findSub key cs <;> rw [hf] at hh <;> simp at hh
      · intro hh; exact absurd (List.isPrefixOf_iff_prefix.mpr hh) h

theorem hasSub_prefix {key w : Str} (h : key <+: w) : hasSub key w = true := by
  cases w with
  | nil => rw [List.prefix_nil.mp h]; rfl
  | cons c cs =>
    unfold hasSub
    rw [List.isPrefixOf_iff_prefix.mpr h]
    rfl

theorem tokMap_map (f g : Str → Str) (ts : List Tok) : tokMap g (tokMap f ts) = tokMap (fun w => g (f w)) ts := by
  induction ts with
  | nil => rfl
  | cons t ts ih => cases t <;> simp [tokMap, ih]

theorem tokMap_congr {f g : Str → Str} (ts : List Tok) (h : ∀ w ∈ tokWords ts, f w = g w) :
    tokMap f ts = tokMap g ts := by
  induction ts with
  | nil => rfl
  | cons t ts ih =>
    cases t with
    | sep c => rw [tokMap, tokMap, ih h]
    | word w =>
      rw [tokMap, tokMap, ih (fun v hv => h v (by simp [tokWords, hv])), h w (by simp [tokWords])]

theorem tokWords_map (f : Str → Str) (ts : List Tok) : tokWords (tokMap f ts) = (tokWords ts).map f := by
  induction ts with
  | nil => rfl
  | cons t ts ih => cases t <;> simp [tokMap, tokWords, ih]

theorem TokOk.map {W : Char → Bool} {f : Str → Str} (hf : ∀ w, (∀ c ∈ w, W c = true) → ∀ c ∈ f w, W c = true)
    (ts : List Tok) (h : TokOk W ts) : TokOk W (tokMap f ts) := by
  induction ts with
  | nil => trivial
  | cons t ts ih =>
    cases t with
    | sep c => exact ⟨h.1, ih h.2⟩
    | word w =>
      cases ts with
      | nil => exact hf w h
      | cons u us =>
        cases u with
        | sep d => exact ⟨hf w h.1, (ih h.tail).1, (ih h.tail).2⟩
        | word v => exact absurd h (by simp [TokOk])

/-- The first word of the line, if the line starts with a word. -/
def firstTok : List Tok → Option Str
  | .word w :: _ => some w
  | _ => none

theorem firstTok_map (f : Str → Str) (ts : List Tok) : firstTok (tokMap f ts) = (firstTok ts).map f := by
  cases ts with
  | nil => rfl
  | cons t ts => cases t <;> rfl

theorem replaceVar_toks (N : Nums R) {W : Char → Bool} (kv : Str × R) (hne : kv.1 ≠ [])
    (hk : ∀ c ∈ kv.1, W c = true) (ts : List Tok) (ht : TokOk W ts)
    (hw : ∀ w ∈ tokWords ts, hasSub kv.1 w = true → w = kv.1)
    (hfirst : ∀ w, firstTok ts = some w → hasSub kv.1 w = false) :
    replaceVar N (tokText ts) kv =
      tokText (tokMap (fun w => if w = kv.1 then N.toText kv.2 else w) ts) := by
  unfold replaceVar replaceAll
  rw [if_neg, replaceFrom_toks _ hne hk ts ht hw]
  rw [findSub_zero hne]
  intro hp
  cases ts with
  | nil => exact hne (List.prefix_nil.mp hp)
  | cons t ts =>
    cases t with
    | sep c =>
      obtain ⟨d, ds, hd⟩ := List.exists_cons_of_ne_nil hne
      rw [hd, tokText] at hp
      have : d = c := by
        obtain ⟨r, hr⟩ := hp
        injection hr
      have h1 := hk d (by rw [hd]; simp)
      rw [this, ht.1] at h1
      exact absurd h1 (by simp)
    | word w =>
      obtain ⟨h1, h2⟩ := ht.word
      have := hasSub_prefix (prefix_word hk h2 hp)
      rw [hfirst w rfl] at this
      exact absurd this (by simp)

/-! ## C33 -/

/-- All variables in one line: every word that is the name of a variable is replaced by its
value and nothing else changes. Missing: names inside longer words (`variable_inside_fails`)
and lines that start with the name (`variable_start_fails`). -/
theorem variables_partial (N : Nums R) (W : Char → Bool) (vars : Dict Str R) (hv : VarsOk N W vars)
    (ts : List Tok) (ht : TokOk W ts)
    (hw : ∀ kv ∈ vars, ∀ w ∈ tokWords ts, hasSub kv.1 w = true → w = kv.1)
    (hfirst : ∀ kv ∈ vars, ∀ w, firstTok ts = some w → hasSub kv.1 w = false) :
    vars.foldl (replaceVar N) (tokText ts) = tokText (tokMap (meaning N vars) ts) := by
  induction vars generalizing ts with
  | nil =>
    have : tokMap (meaning N []) ts = ts := by
      clear ht hw hfirst
      induction ts with
      | nil => rfl
      | cons t ts ih => cases t <;> simp only [tokMap, ih] <;> rfl
    rw [this]
    rfl
  | cons kv vars ih =>
    have hnd := List.nodup_cons.mp hv.nodup
    rw [List.foldl_cons, replaceVar_toks N kv (hv.ne kv (by simp)) (hv.key kv (by simp)) ts ht
      (hw kv (by simp)) (hfirst kv (by simp))]
    have hv' : VarsOk N W vars :=
      ⟨fun x hx => hv.ne x (by simp [hx]), fun x hx => hv.key x (by simp [hx]),
        fun x hx => hv.val x (by simp [hx]), fun x hx y hy => hv.clash x (by simp [hx]) y (by simp [hy]), hnd.2⟩
    have hcl : ∀ x ∈ vars, hasSub x.1 (N.toText kv.2) = false :=
      fun x hx => hv.clash x (by simp [hx]) kv (by simp)
    rw [ih hv' _ ?_ ?_ ?_, tokMap_map]
    · refine congrArg tokText (tokMap_congr ts (fun w _ => ?_))
      unfold meaning
      by_cases hwk : w = kv.1
      · subst hwk
        rw [if_pos rfl, List.find?_cons_of_pos (by simp)]
        have : vars.find? (fun x => x.1 = N.toText kv.2) = none := by
          rw [List.find?_eq_none]
          intro x hx he
          simp only [decide_eq_true_eq] at he
          have := hcl x hx
          rw [← he, hasSub_prefix (List.prefix_refl _)] at this
          exact absurd this (by simp)
        rw [this]
      · rw [if_neg hwk, List.find?_cons_of_neg (by simpa using fun h => hwk h.symm)]
    · refine TokOk.map (fun w hw => ?_) ts ht
      split_ifs
      · exact hv.val kv (by simp)
      · exact hw
    · intro x hx w hm hs
      rw [tokWords_map, List.mem_map] at hm
      obtain ⟨v, hvm, rfl⟩ := hm
      by_cases hvk : v = kv.1
      · rw [if_pos hvk, hcl x hx] at hs
        exact absurd hs (by simp)
      · rw [if_neg hvk] at hs ⊢
        exact hw x (by simp [hx]) v hvm hs
    · intro x hx w hf
      rw [firstTok_map] at hf
      cases hft : firstTok ts with
      | none => rw [hft] at hf; exact absurd hf (by simp)
      | some v =>
        rw [hft] at hf
        simp only [Option.map_some, Option.some.injEq] at hf
        subst hf
        split_ifs with hvk
        · exact hcl x hx
        · exact hfirst x (by simp [hx]) v hft

/-- The name is also replaced inside longer words: whatever stands in front of its first
occurrence and behind it. -/
theorem variable_inside_fails (N : Nums R) (key : Str) (x : R) (hne : key ≠ []) (a b : Str) (ha : a ≠ [])
    (hfirst : ∀ i < a.length, ¬ key <+: (a ++ key ++ b).drop i) :
    replaceVar N (a ++ key ++ b) (key, x) = a ++ N.toText x ++ replaceAll key (N.toText x) b := by
  have h0 : findSub key (a ++ key ++ b) ≠ some 0 := by
    rw [ne_eq, findSub_zero hne]
    exact hfirst 0 (List.length_pos_iff.mpr ha)
  unfold replaceVar
  rw [if_neg h0]
  clear h0 ha
  unfold replaceAll
  induction a with
  | nil => rw [List.nil_append, List.nil_append, replaceFrom_key _ hne]
  | cons c cs ih =>
    have hp : ¬ key.isPrefixOf (c :: (cs ++ key ++ b)) = true := by
      rw [List.isPrefixOf_iff_prefix]
      exact hfirst 0 (by simp)
    rw [List.cons_append, List.cons_append, replaceFrom, if_neg hp, ih (fun i hi => ?_)]
    · rfl
    · have := hfirst (i + 1) (by simpa using hi)
      simpa using this

/-- A line that starts with the name is not changed, so uses of the variable further on stay. -/
theorem variable_start_fails (N : Nums R) (key : Str) (x : R) (hne : key ≠ []) (rest : Str) :
    replaceVar N (key ++ rest) (key, x) = key ++ rest := by
  unfold replaceVar
  rw [if_pos ((findSub_zero hne).mpr (List.prefix_append key rest))]

/-! ### Storing -/

theorem splitWsFrom_word (w x : Str) (hx : ∀ c ∈ x, isSpace c = false) (s : Str) :
    splitWsFrom w (x ++ s) = splitWsFrom (x.reverse ++ w) s := by
  induction x generalizing w with
  | nil => rfl
  | cons c cs ih =>
    rw [List.cons_append, splitWsFrom, if_neg (by rw [hx c (by simp)]; simp), ih _ (fun d hd => hx d (by simp [hd]))]
    simp

theorem splitWs_join (ws : List Str) (h : ∀ w ∈ ws, w ≠ [] ∧ ∀ c ∈ w, isSpace c = false) {u : Str} (hu : Blank u) :
    splitWs (joinBlank ws ++ u) = ws := by
  unfold splitWs
  rw [splitWsFrom_append _ _ hu]
  induction ws with
  | nil => rfl
  | cons w ws ih =>
    obtain ⟨h1, h2⟩ := h w (by simp)
    cases ws with
    | nil =>
      have := splitWsFrom_word [] w h2 []
      rw [List.append_nil] at this
      rw [joinBlank, this, splitWsFrom, if_neg (by simpa using h1)]
      simp
    | cons v vs =>
      rw [joinBlank, splitWsFrom_word [] w h2, splitWsFrom, if_pos (by decide), if_neg (by simpa using h1),
        ih (fun x hx => h x (by simp [List.mem_cons.mp hx]))]
      · simp
      · simp

theorem spaced_join (ws : List Str) : Spaced ws (joinBlank ws) := by
  induction ws with
  | nil => exact .nil
  | cons w ws ih =>
    cases ws with
    | nil => exact .last
    | cons v vs => exact .cons ih

theorem rpn_ne (e : Expr) (he : e.Plain) : ∀ w ∈ e.rpn, w ≠ [] ∧ (∀ c ∈ w, isSpace c = false) ∧ '"' ∉ w ∧ '\'' ∉ w := by
  induction e with
  | num t =>
    intro w hw
    rw [Expr.rpn, List.mem_singleton] at hw
    subst hw
    exact ⟨he.ne, he.space, he.quote.1, he.quote.2⟩
  | pi => intro w hw; rw [Expr.rpn, List.mem_singleton] at hw; subst hw; decide
  | add a b iha ihb | sub a b iha ihb | mul a b iha ihb | div a b iha ihb =>
    intro w hw
    rw [Expr.rpn, List.mem_append, List.mem_append, List.mem_singleton] at hw
    rcases hw with (hw | hw) | rfl
    · exact iha he.1 w hw
    · exact ihb he.2 w hw
    · decide
  | sqrt a iha =>
    intro w hw
    rw [Expr.rpn, List.mem_append, List.mem_singleton] at hw
    rcases hw with hw | rfl
    · exact iha he w hw
    · decide

theorem joinBlank_quote {q : Char} (hq : q ≠ ' ') (ws : List Str) (h : ∀ w ∈ ws, q ∉ w) : q ∉ joinBlank ws := by
  induction ws with
  | nil => simp [joinBlank]
  | cons w ws ih =>
    cases ws with
    | nil => exact h w (by simp)
    | cons v vs =>
      rw [joinBlank, List.mem_append, List.mem_cons, not_or, not_or]
      exact ⟨h w (by simp), hq, ih (fun x hx => h x (by simp [List.mem_cons.mp hx]))⟩
      simp

/-- The words of a definition `% expr sto name`. -/
theorem storeVar_words (N : Nums R) (mid : List Str) (name u : Str) (hu : Blank u)
    (hmid : ∀ w ∈ mid, w ≠ [] ∧ ∀ c ∈ w, isSpace c = false)
    (hname : name ≠ [] ∧ ∀ c ∈ name, isSpace c = false) (vars : Dict Str R) :
    storeVar N (joinBlank ("%".toList :: mid ++ ["sto".toList, name]) ++ u) vars =
      match parseRpn N (joinBlank mid) with
      | .ok x => .ok (dset vars name x)
      | .error e => .error e := by
  have hws : splitWs (joinBlank ("%".toList :: mid ++ ["sto".toList, name]) ++ u) =
      "%".toList :: mid ++ ["sto".toList, name] := by
    refine splitWs_join _ ?_ hu
    intro w hw
    rw [List.cons_append, List.mem_cons, List.mem_append, List.mem_cons, List.mem_singleton] at hw
    rcases hw with rfl | hw | rfl | rfl
    · decide
    · exact hmid w hw
    · decide
    · exact hname
  have hl : ∃ r, lstrip (joinBlank ("%".toList :: mid ++ ["sto".toList, name]) ++ u) = '%' :: r := by
    obtain ⟨y, ys, hy⟩ := List.exists_cons_of_ne_nil (show mid ++ ["sto".toList, name] ≠ [] by simp)
    refine ⟨' ' :: joinBlank (y :: ys) ++ u, ?_⟩
    rw [List.cons_append, hy, joinBlank]
    · rfl
    · simp
  obtain ⟨r, hr⟩ := hl
  unfold storeVar
  rw [hr, hws]
  have h1 : ("%".toList :: mid ++ ["sto".toList, name]).getLast? = some name := by
    rw [show "%".toList :: mid ++ ["sto".toList, name] = ("%".toList :: mid ++ ["sto".toList]) ++ [name] by simp,
      List.getLast?_concat]
  have h2 : (("%".toList :: mid ++ ["sto".toList, name]).take
      (("%".toList :: mid ++ ["sto".toList, name]).length - 2)).drop 1 = mid := by
    rw [show ("%".toList :: mid ++ ["sto".toList, name]).length - 2 = ("%".toList :: mid).length by simp,
      List.take_left' rfl]
    rfl
  simp only [h1, h2]
  cases parseRpn N (joinBlank mid) <;> rfl

/-- A line `% expr sto name` stores the value of the expression. -/
theorem variable_stored (N : Nums R) (e : Expr) (he : e.Plain) (x : R) (hx : e.value N = .ok x)
    (name u : Str) (hu : Blank u) (hname : name ≠ [] ∧ ∀ c ∈ name, isSpace c = false) (vars : Dict Str R) :
    storeVar N (joinBlank ("%".toList :: e.rpn ++ ["sto".toList, name]) ++ u) vars = .ok (dset vars name x) := by
  have hn := rpn_ne e he
  rw [storeVar_words N e.rpn name u hu (fun w hw => ⟨(hn w hw).1, (hn w hw).2.1⟩) hname]
  have hq : (joinBlank e.rpn).filter (fun c => c ≠ '"' ∧ c ≠ '\'') = joinBlank e.rpn :=
    dropQuotes_self ⟨joinBlank_quote (by decide) _ (fun w hw => (hn w hw).2.2.1),
      joinBlank_quote (by decide) _ (fun w hw => (hn w hw).2.2.2)⟩
  rw [rpn_value N e he (joinBlank e.rpn) (by rw [hq]; exact spaced_join _), hx]

/-- A variable whose expression starts with another variable cannot be stored: ValueError,
whatever is stored already. -/
theorem variable_of_variable_fails (N : Nums R) (other : Str) (ho : NumText other) (hn : N.parse other = none)
    (mid : List Str) (hmid : ∀ w ∈ mid, w ≠ [] ∧ ∀ c ∈ w, isSpace c = false)
    (name u : Str) (hu : Blank u) (hname : name ≠ [] ∧ ∀ c ∈ name, isSpace c = false) (vars : Dict Str R) :
    storeVar N (joinBlank ("%".toList :: (other :: mid) ++ ["sto".toList, name]) ++ u) vars =
      .error .valueError := by
  rw [storeVar_words N (other :: mid) name u hu ?_ hname]
  · have : parseRpn N (joinBlank (other :: mid)) = .error .valueError := by
      cases mid with
      | nil => exact (rpn_reject N other [] ho hn).1
      | cons v vs => exact (rpn_reject N other (joinBlank (v :: vs)) ho hn).2
    rw [this]
  · intro w hw
    rcases List.mem_cons.mp hw with rfl | hw
    · exact ⟨ho.ne, ho.space⟩
    · exact hmid w hw

/-- `d1: drift, l=len` with the variable `len` meets the hypotheses, for every text of numbers
made of digits and dots. -/
example (N : Nums R) (x : R) (hx : N.toText x = "0.25".toList) :
    ∃ (W : Char → Bool) (ts : List Tok), tokText ts = "d1: drift, l=len\n".toList ∧ TokOk W ts ∧
      VarsOk N W [("len".toList, x)] ∧
      (∀ w ∈ tokWords ts, hasSub "len".toList w = true → w = "len".toList) ∧
      (∀ w, firstTok ts = some w → hasSub "len".toList w = false) ∧
      tokText (tokMap (meaning N [("len".toList, x)]) ts) = "d1: drift, l=0.25\n".toList := by
  refine ⟨fun c => c.isAlphanum || c == '.', [.word "d1".toList, .sep ':', .sep ' ', .word "drift".toList, .sep ',', .sep ' ',
    .word "l".toList, .sep '=', .word "len".toList, .sep '\n'], by decide, ?_, ?_, by decide, ?_, ?_⟩
  · simp only [TokOk]; decide
  · refine ⟨?_, ?_, ?_, ?_, ?_⟩
    · intro kv h; rw [List.mem_singleton.mp h]; exact (show "len".toList ≠ [] by decide)
    · intro kv h; rw [List.mem_singleton.mp h]
      exact (show ∀ c ∈ "len".toList, (c.isAlphanum || c == '.') = true by decide)
    · intro kv h; rw [List.mem_singleton.mp h]; simp only [hx]; decide
    · intro kv h kv' h'; rw [List.mem_singleton.mp h, List.mem_singleton.mp h']; simp only [hx]; decide
    · simp
  · intro w h
    simp only [firstTok, Option.some.injEq] at h
    subst h
    decide
  · have h1 : meaning N [("len".toList, x)] "len".toList = "0.25".toList := by
      unfold meaning; rw [List.find?_cons_of_pos (by simp)]; exact hx
    have h2 : ∀ w : Str, w ≠ "len".toList → meaning N [("len".toList, x)] w = w := by
      intro w hw
      unfold meaning
      rw [List.find?_cons_of_neg (by simpa using fun h => hw h.symm)]
      rfl
    simp only [tokMap, h1, h2 "d1".toList (by decide), h2 "drift".toList (by decide), h2 "l".toList (by decide)]
    decide

/-- `x=2*lengths` and the variable `length` meet the hypotheses of `variable_inside_fails`. -/
example : ∀ i < "x=2*".toList.length, ¬ "length".toList <+: ("x=2*".toList ++ "length".toList ++ "s".toList).drop i := by
  decide

end Verif.Lte
