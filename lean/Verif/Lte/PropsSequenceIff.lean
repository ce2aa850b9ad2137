import Verif.Lte.PropsFile

/-!
C31, exactly: the elements of the parsed beamline are those of the expansion if and only if no line
is used twice (lte_parser.py:127-193, Beamline.py:add_element, add_beamline).
-/

namespace Verif.Lte

open Verif.Lattice

variable {R : Type}

/-- Number of elements added by the calls. -/
def addedElems : List Act → Nat
  | [] => 0
  | .elem _ _ :: as => addedElems as + 1
  | .line _ :: as => addedElems as

/-- Lines opened by the calls. -/
def openedLines : List Act → List Str
  | [] => []
  | .elem _ _ :: as => openedLines as
  | .line s :: as => s :: openedLines as

theorem addedElems_append (as bs : List Act) : addedElems (as ++ bs) = addedElems as + addedElems bs := by
  induction as with
  | nil => simp [addedElems]
  | cons a as ih => cases a <;> simp only [List.cons_append, addedElems, ih] <;> omega

theorem openedLines_append (as bs : List Act) : openedLines (as ++ bs) = openedLines as ++ openedLines bs := by
  induction as with
  | nil => rfl
  | cons a as ih => cases a <;> simp [openedLines, ih]

theorem expands_calls {L : Str → Option (List Str)} {cur es us : List Str} (he : Expands L cur es us) :
    ∀ sub as, Acts L sub cur as → addedElems as = es.length ∧ openedLines as = us := by
  induction he with
  | nil => intro sub as h; cases h; exact ⟨rfl, rfl⟩
  | elem hn _ ih =>
    intro sub as h
    cases h with
    | elem _ h => obtain ⟨a, b⟩ := ih _ _ h; simp [addedElems, openedLines, a, b]
    | line hs _ _ => rw [hn] at hs; exact absurd hs (by simp)
  | line hs _ _ ih1 ih2 =>
    intro sub as h
    cases h with
    | elem hn _ => rw [hn] at hs; exact absurd hs (by simp)
    | line hs' h1 h2 =>
      rw [hs] at hs'
      injection hs' with hs'
      subst hs'
      obtain ⟨a, b⟩ := ih1 _ _ h1
      obtain ⟨c, d⟩ := ih2 _ _ h2
      simp [addedElems, openedLines, addedElems_append, openedLines_append, a, b, c, d]

/-- Length of what an entry shows. -/
def entLen (store : Str → List Str) : Ent → Nat
  | .elem _ => 1
  | .line s => (store s).length

theorem flat_length (A : ABeam) : A.flat.length = (A.ents.map (entLen A.store)).sum := by
  unfold ABeam.flat
  rw [List.length_flatMap]
  congr 1
  apply List.map_congr_left
  intro e _
  cases e <;> rfl

theorem sum_grow (store : Str → List Str) (s n : Str) (ents : List Ent) :
    (ents.map (entLen fun x => if x = s then store s ++ [n] else store x)).sum =
      (ents.map (entLen store)).sum + ents.count (.line s) := by
  induction ents with
  | nil => rfl
  | cons e ents ih =>
    simp only [List.map_cons, List.sum_cons, ih, List.count_cons]
    cases e with
    | elem m => simp only [entLen]; simp; omega
    | line x =>
      by_cases hx : x = s
      · subst hx; simp [entLen]; omega
      · simp [entLen, hx]; omega

/-- The picture shows at least `k` elements, and what is stored under `s` once more for every use of
`s` after the first. -/
def Shows (s : Str) (A : ABeam) (k : Nat) : Prop :=
  k + (A.store s).length * A.ents.count (.line s) ≤ A.flat.length + (A.store s).length

theorem shows_acts {L : Str → Option (List Str)} (s : Str) {sub : Bool} {cur : List Str} {as : List Act}
    (ha : Acts L sub cur as) :
    ∀ A : ABeam, (sub = true → ∃ x, A.ents.getLast? = some (.line x)) → ∀ k, Shows s A k →
      Shows s (A.acts as) (k + addedElems as) := by
  induction ha with
  | nil => intro A _ k h; exact h
  | @elem sub n rest as hn _ ih =>
    intro A hl k h
    have hstep : Shows s (A.act (.elem (dropQuotes n) sub)) (k + 1) ∧
        (sub = true → ∃ x, (A.act (.elem (dropQuotes n) sub)).ents.getLast? = some (.line x)) := by
      cases sub with
      | false =>
        refine ⟨?_, by simp⟩
        unfold Shows at h ⊢
        rw [flat_length] at h ⊢
        simp only [ABeam.act, List.count_append, List.map_append, List.sum_append, List.map_cons, List.map_nil,
          List.sum_cons, List.sum_nil, entLen]
        have : List.count (Ent.line s) [Ent.elem (dropQuotes n)] = 0 := by simp
        simp only [this, Nat.add_zero]
        omega
      | true =>
        obtain ⟨x, hx⟩ := hl rfl
        have hact : A.act (.elem (dropQuotes n) true) =
            { A with store := fun y => if y = x then A.store x ++ [dropQuotes n] else A.store y } := by
          simp only [ABeam.act, hx]
        rw [hact]
        refine ⟨?_, fun _ => ⟨x, hx⟩⟩
        have hc : 1 ≤ A.ents.count (.line x) := by
          rw [List.one_le_count_iff]
          exact List.mem_of_getLast? hx
        unfold Shows at h ⊢
        rw [flat_length] at h ⊢
        simp only [sum_grow]
        by_cases hs : s = x
        · subst hs
          simp only [if_true, List.length_append, List.length_cons, List.length_nil]
          rw [Nat.add_mul]
          omega
        · simp only [if_neg hs]
          omega
    have := ih _ hstep.2 (k + 1) hstep.1
    have e : k + addedElems (Act.elem (dropQuotes n) sub :: as) = k + 1 + addedElems as := by
      simp only [addedElems]; omega
    rw [e]
    exact this
  | @line sub x its rest as bs hx _ _ ih1 ih2 =>
    intro A _ k h
    have hstep : Shows s (A.act (.line x)) k := by
      unfold Shows at h ⊢
      rw [flat_length] at h ⊢
      simp only [ABeam.act, List.count_append, List.map_append, List.sum_append, List.map_cons, List.map_nil,
          List.sum_cons, List.sum_nil, entLen]
      by_cases hs : x = s
      · subst hs
        have : List.count (Ent.line x) [Ent.line x] = 1 := by simp
        rw [this, Nat.mul_add]
        omega
      · have : List.count (Ent.line s) [Ent.line x] = 0 := by simp [hs]
        rw [this, Nat.add_zero]
        omega
    have h1 := ih1 (A.act (.line x)) (fun _ => ⟨x, by simp [ABeam.act]⟩) k hstep
    have h2 := ih2 _ (by simp) _ h1
    have e : k + addedElems (Act.line x :: (as ++ bs)) = k + addedElems as + addedElems bs := by
      simp only [addedElems, addedElems_append]; omega
    rw [e]
    have : A.acts (.line x :: (as ++ bs)) = ((A.act (.line x)).acts as).acts bs := by
      rw [← acts_append]; rfl
    rw [this]
    exact h2

theorem count_opened (s : Str) (as : List Act) : ∀ A : ABeam,
    (A.acts as).ents.count (.line s) = A.ents.count (.line s) + (openedLines as).count s := by
  induction as with
  | nil => intro A; simp [ABeam.acts, openedLines]
  | cons a as ih =>
    intro A
    have : A.acts (a :: as) = (A.act a).acts as := rfl
    rw [this, ih]
    cases a with
    | line x =>
      simp only [ABeam.act, openedLines, List.count_append, List.count_cons, List.count_nil]
      by_cases hx : x = s <;> simp [hx] <;> omega
    | elem n b =>
      cases b with
      | false => simp [ABeam.act, openedLines]
      | true =>
        simp only [openedLines]
        congr 1
        simp only [ABeam.act]
        split <;> rfl

theorem store_grows (s : Str) (as : List Act) : ∀ A : ABeam, (A.store s).length ≤ ((A.acts as).store s).length := by
  induction as with
  | nil => intro A; exact Nat.le_refl _
  | cons a as ih =>
    intro A
    refine Nat.le_trans ?_ (ih (A.act a))
    cases a with
    | line x => exact Nat.le_refl _
    | elem n b =>
      cases b with
      | false => exact Nat.le_refl _
      | true =>
        simp only [ABeam.act]
        split
        · rename_i x _
          by_cases hx : s = x
          · subst hx; simp
          · simp [hx]
        · exact Nat.le_refl _

/-- A line that begins with an element and is opened has something stored under its name. -/
theorem store_opened {L : Str → Option (List Str)} {s n : Str} {r : List Str} (hs : L s = some (n :: r))
    (hn : L n = none) {sub : Bool} {cur : List Str} {as : List Act} (ha : Acts L sub cur as) :
    s ∈ openedLines as → ∀ A : ABeam, 1 ≤ ((A.acts as).store s).length := by
  induction ha with
  | nil => intro h; exact absurd h (by simp [openedLines])
  | elem _ _ ih => intro h A; exact ih h _
  | @line sub x its rest as bs hx h1 h2 ih1 ih2 =>
    intro h A
    have e : A.acts (.line x :: (as ++ bs)) = ((A.act (.line x)).acts as).acts bs := by
      rw [← acts_append]; rfl
    rw [e]
    simp only [openedLines, openedLines_append, List.mem_cons, List.mem_append] at h
    rcases h with h | h | h
    · subst h
      refine Nat.le_trans ?_ (store_grows s bs _)
      rw [hs] at hx
      injection hx with hx
      subst hx
      cases h1 with
      | @elem _ _ _ as' _ h1 =>
        refine Nat.le_trans ?_ (store_grows s as' ((A.act (.line s)).act (.elem (dropQuotes n) true)))
        simp [ABeam.act]
      | line hl _ _ => rw [hn] at hl; exact absurd hl (by simp)
    · exact Nat.le_trans (ih1 h _) (store_grows s bs _)
    · exact ih2 h _

/-- A line that begins with the line `t` is used at most as often as `t`. -/
theorem count_leading {L : Str → Option (List Str)} {s t : Str} {r its' : List Str} (hs : L s = some (t :: r))
    (ht : L t = some its') (hne : s ≠ t) {cur es us : List Str} (he : Expands L cur es us) :
    us.count s ≤ us.count t ∧ (cur.head? = some t → us.count s + 1 ≤ us.count t) := by
  induction he with
  | nil => simp
  | @elem n rest es us hn _ ih =>
    refine ⟨ih.1, ?_⟩
    intro h
    simp only [List.head?_cons, Option.some.injEq] at h
    rw [h, ht] at hn
    exact absurd hn (by simp)
  | @line x its rest as us bs vs hx _ _ ih1 ih2 =>
    simp only [List.cons_append, List.count_cons, List.count_append]
    constructor
    · by_cases hxs : x = s
      · subst hxs
        rw [hs] at hx
        injection hx with hx
        have := ih1.2 (by rw [← hx]; rfl)
        have h2 := ih2.1
        simp [hne]
        omega
      · have h1 := ih1.1
        have h2 := ih2.1
        simp [hxs]
        omega
    · intro h
      simp only [List.head?_cons, Option.some.injEq] at h
      subst h
      have h1 := ih1.1
      have h2 := ih2.1
      have : (x == s) = false := by simp [Ne.symm hne]
      simp [this]
      omega

/-- Following the lines at the front leads to a line that begins with an element. -/
theorem leading_elem {L : Str → Option (List Str)} (hL : ∀ s its, L s = some its → its ≠ []) {cur es us : List Str}
    (he : Expands L cur es us) : ∀ s its, cur.head? = some s → L s = some its →
      ∃ t n r, L t = some (n :: r) ∧ L n = none ∧
        ∀ cur' es' us', Expands L cur' es' us' → us'.count s ≤ us'.count t := by
  induction he with
  | nil => intro s its h; exact absurd h (by simp)
  | elem hn _ _ =>
    intro s its h hs
    simp only [List.head?_cons, Option.some.injEq] at h
    rw [h, hs] at hn
    exact absurd hn (by simp)
  | @line x its rest as us bs vs hx _ _ ih1 _ =>
    intro s its' h hs
    simp only [List.head?_cons, Option.some.injEq] at h
    subst h
    cases its with
    | nil => exact absurd rfl (hL _ _ hx)
    | cons t r =>
      cases ht : L t with
      | none => exact ⟨x, t, r, hx, ht, fun _ _ _ _ => Nat.le_refl _⟩
      | some its2 =>
        obtain ⟨u, n, r', h1, h2, h3⟩ := ih1 t its2 rfl ht
        refine ⟨u, n, r', h1, h2, ?_⟩
        intro cur' es' us' he'
        refine Nat.le_trans ?_ (h3 _ _ _ he')
        by_cases hxt : x = t
        · rw [hxt]
        · exact (count_leading hx ht hxt he').1

theorem used_expands {L : Str → Option (List Str)} {cur es us : List Str} (he : Expands L cur es us) :
    ∀ s ∈ us, ∃ its as vs, L s = some its ∧ Expands L [s] as vs := by
  induction he with
  | nil => intro s h; exact absurd h (by simp)
  | elem _ _ ih => exact ih
  | line hx h1 _ ih1 ih2 =>
    intro s h
    simp only [List.cons_append, List.mem_cons, List.mem_append] at h
    rcases h with h | h | h
    · subst h; exact ⟨_, _, _, hx, .line hx h1 .nil⟩
    · exact ih1 s h
    · exact ih2 s h

/-- C31, exactly: parsing the line gives at least the elements of its expansion, and gives them, in
order, if and only if no line is used twice. With a line used twice there are too many elements. -/
theorem sequence_iff (N : Nums R) (f : Found) (L : Str → Option (List Str)) (hL : LinesOf f.lines L)
    (D : Str → Str × Str × Params R) (name : Str) (c : Char) (text : Str) (names es us : List Str)
    (title : Option Str) (hname : L name = some names) (htext : f.text = c :: text) (hnames : TextOf names text)
    (he : Expands L names es us) (hdef : ∀ n ∈ es, DefinedAs N f.defs n (D n)) (fuel : Nat)
    (hfuel : es.length + us.length ≤ fuel) :
    ∃ h ids, parseLine N f name title fuel = some (.ok h) ∧ Unfolds h (h.line 0).seq ids ∧
      es.length ≤ ids.length ∧ (ids.map (edata h) = es.map D ↔ us.Nodup) ∧ (ids.length = es.length ↔ us.Nodup) := by
  have hne : ∀ s its, L s = some its → its ≠ [] := by
    intro s its hs
    rcases hL s with ⟨_, h2⟩ | ⟨c, t, ns, _, h2, h3⟩
    · rw [h2] at hs; exact absurd hs (by simp)
    · rw [h2] at hs; injection hs with hs; subst hs; exact textOf_ne h3
  obtain ⟨as, h1, h2, _, h4⟩ := expands_acts he false
  obtain ⟨h, ids, h5, h6, h7⟩ := parse_acts N f L hL D name c text names title hname htext hnames h1
    (fun n b hn => hdef n (h4 n b hn)) fuel (by omega)
  obtain ⟨he1, he2⟩ := expands_calls he false as h1
  have hlen : ids.length = (ABeam.acts ⟨[], fun _ => []⟩ as).flat.length := by
    have := congrArg List.length h7
    simpa using this
  have hshow : ∀ s, Shows s (ABeam.acts ⟨[], fun _ => []⟩ as) es.length := by
    intro s
    have := shows_acts s h1 ⟨[], fun _ => []⟩ (by simp) 0 (by simp [Shows])
    rw [he1, Nat.zero_add] at this
    exact this
  have hgood : us.Nodup → ids.map (edata h) = es.map D := by
    intro hus
    rw [h7, flat_linear he false as _ h1 hus (fun x _ => ⟨by simp, rfl⟩) (by intro h; exact absurd h (by simp))]
    rfl
  have hbad : ¬ us.Nodup → es.length < ids.length := by
    intro hus
    rw [List.nodup_iff_count_le_one] at hus
    simp only [not_forall] at hus
    obtain ⟨s, hs⟩ := hus
    have hmem : s ∈ us := by
      rw [← List.count_pos_iff]; omega
    obtain ⟨its, as', vs', hs1, hs2⟩ := used_expands he s hmem
    obtain ⟨t, n, r, ht1, ht2, ht3⟩ := leading_elem hne hs2 s its rfl hs1
    have hct := ht3 _ _ _ he
    have hto : t ∈ openedLines as := by
      rw [he2, ← List.count_pos_iff]; omega
    have hst := store_opened ht1 ht2 h1 hto ⟨[], fun _ => []⟩
    have hco := count_opened t as ⟨[], fun _ => []⟩
    rw [he2] at hco
    simp only [List.count_nil, Nat.zero_add] at hco
    have hsh := hshow t
    unfold Shows at hsh
    rw [hlen]
    have : ((ABeam.acts ⟨[], fun _ => []⟩ as).store t).length * 2 ≤
        ((ABeam.acts ⟨[], fun _ => []⟩ as).store t).length * (ABeam.acts ⟨[], fun _ => []⟩ as).ents.count (.line t) :=
        Nat.mul_le_mul_left _ (by omega)
    omega
  have hlenok : us.Nodup → ids.length = es.length := by
    intro hn
    have := congrArg List.length (hgood hn)
    simpa using this
  refine ⟨h, ids, h5, h6, ?_, ⟨?_, hgood⟩, ⟨?_, hlenok⟩⟩
  · by_cases hn : us.Nodup
    · exact Nat.le_of_eq (hlenok hn).symm
    · exact Nat.le_of_lt (hbad hn)
  · intro heq
    by_contra hn
    have h1 := hbad hn
    have h2 := congrArg List.length heq
    simp only [List.length_map] at h2
    omega
  · intro heq
    by_contra hn
    have h1 := hbad hn
    omega

/-- C31, exactly, for files: a file of definitions and lines gives the elements of the expansion of the
line asked for if and only if the expansion uses no line twice. -/
theorem file_sequence_iff (N : Nums R) (fls : List FLine) (hok : ∀ l ∈ fls, l.Ok) (file : List Str)
    (hfile : file.map lower = fls.map FLine.text) (name : Str) (hname : name ≠ []) (D : Str → Str × Str × Params R)
    (names es us : List Str) (hline : lineOf fls (lower name) = some names)
    (he : Expands (lineOf fls) names es us)
    (hdef : ∀ n ∈ es, DefinedAs N (defsOf fls) n (D n)) (fuel : Nat) (hfuel : es.length + us.length ≤ fuel) :
    ∃ h ids, parseFile N file name fuel = some (.ok h) ∧
      Unfolds h (h.line 0).seq ids ∧ es.length ≤ ids.length ∧ (ids.map (edata h) = es.map D ↔ us.Nodup) ∧
      (ids.length = es.length ↔ us.Nodup) := by
  have hln : lower name ≠ [] := by
    intro h
    exact hname (List.map_eq_nil_iff.mp h)
  have hplain : ∀ l ∈ file, PlainLine (lower l) := by
    intro l hl
    have : lower l ∈ fls.map FLine.text := by rw [← hfile]; exact List.mem_map_of_mem hl
    obtain ⟨x, hx, hxl⟩ := List.mem_map.mp this
    rw [← hxl]
    exact plain_text (hok x hx)
  have hrep : replaceVars N (⟨fls.map FLine.text, []⟩ : Clean R) = fls.map FLine.text := by
    unfold replaceVars
    simp only [List.foldl_nil]
    exact List.map_id _
  obtain ⟨h1, h2, h3⟩ := findLoop_spec (lower name) fls hok
  obtain ⟨text, names', hn', htext, htx⟩ := h3.resolve_left (by rw [hline]; simp)
  rw [hline] at hn'
  injection hn' with hn'
  subst hn'
  obtain ⟨h, ids, a, b, c⟩ := sequence_iff N (findLoop (lower name) (fls.map FLine.text)) (lineOf fls) h2 D
    (lower name) '(' text names es us (some name) hline htext htx he (by rw [h1]; exact hdef) fuel hfuel
  refine ⟨h, ids, ?_, b, c⟩
  unfold parseFile
  rw [sanitize_plain N file hplain, hfile]
  simp only
  rw [hrep]
  unfold findBeamlines
  rw [if_neg hln]
  exact a

/-- A cell used twice, at the end of another line that is used once: there are more than four elements. -/
def exRepeat : List FLine :=
  [.elem "q: quad\n".toList, .elem "d: drift\n".toList,
    .line "cell".toList " ".toList [.simple (.one "d".toList), .simple (.one "q".toList)] "\n".toList,
    .line "half".toList [] [.simple (.one "cell".toList)] "\n".toList,
    .line "top".toList [] [.simple (.one "half".toList), .simple (.one "cell".toList)] "\n".toList]

example (N : Nums R) : ∃ h ids, parseFile N
      ["Q: QUAD\n".toList, "D: drift\n".toList, "CELL: line=(d,q)\n".toList, "half:line=(Cell)\n".toList,
        "top:line=(half,cell)\n".toList]
      "TOP".toList 7 = some (.ok h) ∧ Unfolds h (h.line 0).seq ids ∧ 4 < ids.length := by
  have hn : ∀ t ∈ ["q".toList, "d".toList, "cell".toList, "half".toList], NameText t := by
    intro t ht
    have h : ∀ t ∈ ["q".toList, "d".toList, "cell".toList, "half".toList],
        (∀ c ∈ t, isSpace c = false ∧ c ≠ ',' ∧ c ≠ ')' ∧ c ≠ '(' ∧ c.isDigit = false) ∧ t ≠ [] := by decide
    exact ex_nameText t (h t ht).1 (h t ht).2
  have hok : ∀ l ∈ exRepeat, l.Ok := by
    intro l hl
    simp only [exRepeat, List.mem_cons, List.not_mem_nil, or_false] at hl
    rcases hl with rfl | rfl | rfl | rfl | rfl
    · exact ⟨ex_plain ⟨'q', by decide, by decide⟩ (by decide) (by decide) (by decide), by decide⟩
    · exact ⟨ex_plain ⟨'d', by decide, by decide⟩ (by decide) (by decide) (by decide), by decide⟩
    · refine ⟨ex_plain ⟨'c', by decide, by decide⟩ (by decide) (by decide) (by decide), by decide, by simp [Blank]; decide,
        by simp, ?_, by simp [Blank]; decide⟩
      intro i hi
      simp only [List.mem_cons, List.not_mem_nil, or_false] at hi
      rcases hi with rfl | rfl
      exacts [hn _ (by decide), hn _ (by decide)]
    · refine ⟨ex_plain ⟨'h', by decide, by decide⟩ (by decide) (by decide) (by decide), by decide, by simp [Blank],
        by simp, ?_, by simp [Blank]; decide⟩
      intro i hi
      simp only [List.mem_cons, List.not_mem_nil, or_false] at hi
      subst hi
      exact hn _ (by decide)
    · refine ⟨ex_plain ⟨'t', by decide, by decide⟩ (by decide) (by decide) (by decide), by decide, by simp [Blank],
        by simp, ?_, by simp [Blank]; decide⟩
      intro i hi
      simp only [List.mem_cons, List.not_mem_nil, or_false] at hi
      rcases hi with rfl | rfl
      exacts [hn _ (by decide), hn _ (by decide)]
  have hc : Expands (lineOf exRepeat) ["cell".toList] ["d".toList, "q".toList] ["cell".toList] :=
    .line (its := ["d".toList, "q".toList]) (as := ["d".toList, "q".toList]) (us := []) (bs := []) (vs := [])
      (by decide) (.elem (n := "d".toList) (by decide) (.elem (n := "q".toList) (by decide) .nil)) .nil
  have he : Expands (lineOf exRepeat) ["half".toList, "cell".toList]
      ["d".toList, "q".toList, "d".toList, "q".toList] ["half".toList, "cell".toList, "cell".toList] :=
    .line (its := ["cell".toList]) (as := ["d".toList, "q".toList]) (us := ["cell".toList]) (vs := ["cell".toList])
      (by decide) hc hc
  obtain ⟨h, ids, a, b, d, _, e⟩ := file_sequence_iff N exRepeat hok
    ["Q: QUAD\n".toList, "D: drift\n".toList, "CELL: line=(d,q)\n".toList, "half:line=(Cell)\n".toList,
      "top:line=(half,cell)\n".toList]
    (by decide) "TOP".toList (by decide)
    (fun n => (n, if n = "q".toList then "quad".toList else "drift".toList, [])) _ _ _ (by decide) he
    (fun n hn => ex_defs N n (by
      have : ∀ n ∈ ["d".toList, "q".toList, "d".toList, "q".toList], n ∈ ["q".toList, "d".toList] := by decide
      exact this n hn)) 7 (by decide)
  refine ⟨h, ids, a, b, ?_⟩
  have hne : ids.length ≠ 4 := fun h4 => absurd (e.mp h4) (by decide)
  have : 4 ≤ ids.length := d
  omega

end Verif.Lte
