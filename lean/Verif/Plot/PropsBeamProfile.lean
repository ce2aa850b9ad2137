import Verif.Plot.BeamProfile
import Verif.Plot.PropsProfile

/-!
# Property C124: the quantities of a beamline profile
-/

namespace Verif.Plot

theorem mapM_ok {α β : Type} (f : α → Except PyErr β) : ∀ (l : List α), (∀ a ∈ l, ∃ b, f a = .ok b) → ∃ r, l.mapM f = .ok r
  | [], _ => ⟨[], rfl⟩
  | a :: l, h => by
    obtain ⟨b, hb⟩ := h a (by simp)
    obtain ⟨r, hr⟩ := mapM_ok f l fun x hx => h x (by simp [hx])
    refine ⟨b :: r, ?_⟩
    rw [List.mapM_cons, hb, hr]
    rfl

theorem mapM_all {α β : Type} (f : α → Except PyErr β) : ∀ (l : List α) (r : List β), l.mapM f = .ok r →
    r.length = l.length ∧ ∀ (i : Nat) (a : α), l[i]? = some a → ∃ b, r[i]? = some b ∧ f a = .ok b
  | [], r, h => by
    rw [List.mapM_nil] at h
    cases h
    exact ⟨rfl, by simp⟩
  | a :: l, r, h => by
    rw [List.mapM_cons] at h
    cases hb : f a with
    | error e => rw [hb] at h; cases h
    | ok b =>
      rw [hb] at h
      cases hr : l.mapM f with
      | error e => rw [hr] at h; cases h
      | ok q =>
        rw [hr] at h
        cases h
        obtain ⟨h1, h2⟩ := mapM_all f l q hr
        refine ⟨by simp [h1], fun i x hx => ?_⟩
        cases i with
        | zero =>
          simp only [List.getElem?_cons_zero, Option.some.injEq] at hx
          exact ⟨b, by simp, by rw [← hx, hb]⟩
        | succ i => simpa using h2 i x (by simpa using hx)

/-- The texts of a column can be shown: it is described, and its symbol and units are understood. -/
def Shown (o : Open) (q : String) : Prop :=
  ∃ t, o.texts.lookup q = some t ∧ (t.symbol ≠ [] → ∃ x, formatSymbol t.symbol true = .ok x) ∧
    (t.units ≠ [] → ∃ x, formatSymbol t.units true = .ok x)

/-- The label of a column with a description `t`. -/
def Labelled (t : ColText) (label : List Char) : Prop :=
  (t.symbol = [] → label = t.description) ∧ (t.symbol ≠ [] → formatSymbol t.symbol true = .ok label)

/-- The units shown for a column with a description `t`. -/
def Measured (t : ColText) (units : List Char) : Prop :=
  (t.units = [] → units = "$-$".toList) ∧ (t.units ≠ [] → formatSymbol t.units true = .ok units)

theorem labelOf_ok {o : Open} {q : String} {l : List Char} (h : labelOf o q = .ok l) :
    ∃ t, o.texts.lookup q = some t ∧ Labelled t l := by
  unfold labelOf at h
  cases ht : o.texts.lookup q with
  | none => rw [ht] at h; cases h
  | some t =>
    rw [ht] at h
    refine ⟨t, rfl, ?_⟩
    simp only at h
    by_cases hs : t.symbol ≠ []
    · rw [if_pos hs] at h
      exact ⟨fun hn => absurd hn hs, fun _ => h⟩
    · rw [if_neg hs] at h
      cases h
      exact ⟨fun _ => rfl, fun hn => absurd hn hs⟩

theorem unitsOf_ok {o : Open} {q : String} {l : List Char} (h : unitsOf o q = .ok l) :
    ∃ t, o.texts.lookup q = some t ∧ Measured t l := by
  unfold unitsOf at h
  cases ht : o.texts.lookup q with
  | none => rw [ht] at h; cases h
  | some t =>
    rw [ht] at h
    refine ⟨t, rfl, ?_⟩
    simp only at h
    by_cases hs : t.units ≠ []
    · rw [if_pos hs] at h
      exact ⟨fun hn => absurd hn hs, fun _ => h⟩
    · rw [if_neg hs] at h
      cases h
      exact ⟨fun _ => rfl, fun hn => absurd hn hs⟩

theorem shown_iff (o : Open) (q : String) : Shown o q ↔ (∃ l, labelOf o q = .ok l) ∧ ∃ u, unitsOf o q = .ok u := by
  constructor
  · rintro ⟨t, ht, h1, h2⟩
    unfold labelOf unitsOf
    rw [ht]
    constructor
    · simp only
      by_cases hs : t.symbol ≠ []
      · rw [if_pos hs]; exact h1 hs
      · rw [if_neg hs]; exact ⟨_, rfl⟩
    · simp only
      by_cases hs : t.units ≠ []
      · rw [if_pos hs]; exact h2 hs
      · rw [if_neg hs]; exact ⟨_, rfl⟩
  · rintro ⟨⟨l, hl⟩, u, hu⟩
    obtain ⟨t, ht, hl⟩ := labelOf_ok hl
    obtain ⟨t', ht', hu⟩ := unitsOf_ok hu
    rw [ht] at ht'
    cases ht'
    exact ⟨t, ht, fun hs => ⟨l, hl.2 hs⟩, fun hs => ⟨u, hu.2 hs⟩⟩

theorem curveOf_ok {o : Open} {t : Table} {q : String} {c : Curve} (h : curveOf o t q = .ok c) :
    t.nums.lookup "s" = some c.xs ∧ t.nums.lookup q = some c.ys ∧ labelOf o q = .ok c.label := by
  unfold curveOf Table.field at h
  cases h1 : t.nums.lookup "s" with
  | none => rw [h1] at h; cases h
  | some xs =>
    rw [h1] at h
    cases h2 : t.nums.lookup q with
    | none => rw [h2] at h; cases h
    | some ys =>
      rw [h2] at h
      cases h3 : labelOf o q with
      | error e => rw [h3] at h; cases h
      | ok l =>
        rw [h3] at h
        cases h
        exact ⟨rfl, rfl, rfl⟩

/-- All parts of a plot that was drawn. -/
theorem beamline_parts {o : Open} {page : Int} {quantities : Option (List String)} {p : BeamPlot}
    (h : beamlineProfile o page quantities = .ok p) :
    ∃ t ls us, pageAt o.pages page = some t ∧ profileOf t = .ok p.profile ∧
      (quantitiesOf quantities).mapM (curveOf o t) = .ok p.curves ∧ (quantitiesOf quantities).mapM (labelOf o) = .ok ls ∧
      (quantitiesOf quantities).mapM (unitsOf o) = .ok us ∧
      p.ylabel = joinComma ls ++ " (".toList ++ joinComma us ++ ")".toList := by
  unfold beamlineProfile at h
  cases ht : pageAt o.pages page with
  | none => rw [ht] at h; cases h
  | some t =>
    rw [ht] at h
    simp only at h
    cases h1 : profileOf t with
    | error e => rw [h1] at h; cases h
    | ok pr =>
      rw [h1] at h
      cases h2 : (quantitiesOf quantities).mapM (curveOf o t) with
      | error e => rw [h2] at h; cases h
      | ok cs =>
        rw [h2] at h
        cases h3 : (quantitiesOf quantities).mapM (labelOf o) with
        | error e => rw [h3] at h; cases h
        | ok ls =>
          rw [h3] at h
          cases h4 : (quantitiesOf quantities).mapM (unitsOf o) with
          | error e => rw [h4] at h; cases h
          | ok us =>
            rw [h4] at h
            cases h
            exact ⟨t, ls, us, rfl, h1, h2, rfl, rfl, rfl⟩

/-- **C124, what is shown.** A plot has one line for each quantity asked for (Sx and Sy if none is), in the same order; each shows
its column over the column `s` of the page asked for, with the formatted symbol, or the description of a column without symbol, as label.
The label of the axis lists the same labels and then, in brackets, the units. -/
theorem beamline_profile_shows {o : Open} {page : Int} {quantities : Option (List String)} {p : BeamPlot}
    (h : beamlineProfile o page quantities = .ok p) :
    ∃ t us, pageAt o.pages page = some t ∧ p.curves.length = (quantitiesOf quantities).length ∧
      us.length = (quantitiesOf quantities).length ∧
      p.ylabel = joinComma (p.curves.map Curve.label) ++ " (".toList ++ joinComma us ++ ")".toList ∧
      ∀ (i : Nat) (q : String), (quantitiesOf quantities)[i]? = some q →
        ∃ c u txt, p.curves[i]? = some c ∧ us[i]? = some u ∧ o.texts.lookup q = some txt ∧
          t.nums.lookup "s" = some c.xs ∧ t.nums.lookup q = some c.ys ∧ Labelled txt c.label ∧ Measured txt u := by
  obtain ⟨t, ls, us, ht, -, h2, h3, h4, h5⟩ := beamline_parts h
  obtain ⟨l2, g2⟩ := mapM_all _ _ _ h2
  obtain ⟨l3, g3⟩ := mapM_all _ _ _ h3
  obtain ⟨l4, g4⟩ := mapM_all _ _ _ h4
  have hls : ls = p.curves.map Curve.label := by
    apply List.ext_getElem?
    intro i
    rw [List.getElem?_map]
    cases hq : (quantitiesOf quantities)[i]? with
    | none =>
      have hi : (quantitiesOf quantities).length ≤ i := List.getElem?_eq_none_iff.mp hq
      rw [List.getElem?_eq_none (by omega), List.getElem?_eq_none (by omega)]
      rfl
    | some q =>
      obtain ⟨c, hc, hf⟩ := g2 i q hq
      obtain ⟨l, hl, hfl⟩ := g3 i q hq
      rw [hc, hl]
      have := (curveOf_ok hf).2.2
      rw [hfl] at this
      cases this
      rfl
  refine ⟨t, us, ht, l2, l4, by rw [h5, hls], fun i q hq => ?_⟩
  obtain ⟨c, hc, hf⟩ := g2 i q hq
  obtain ⟨u, hu, hfu⟩ := g4 i q hq
  obtain ⟨e1, e2, e3⟩ := curveOf_ok hf
  obtain ⟨txt, htx, hlab⟩ := labelOf_ok e3
  obtain ⟨txt', htx', hmeas⟩ := unitsOf_ok hfu
  rw [htx] at htx'
  cases htx'
  exact ⟨c, u, txt, hc, hu, htx, e1, e2, hlab, hmeas⟩

/-- **C124, when it is shown.** A plot is drawn exactly if the page exists and has rows and the columns `s` and `ElementType`, and
every quantity is a column whose symbol and units are understood. -/
theorem beamline_profile_iff (o : Open) (page : Int) (quantities : Option (List String))
    (hw : ∀ t ∈ o.pages, ∀ s ts, t.nums.lookup "s" = some s → t.types = some ts → ts.length = s.length) :
    (∃ p, beamlineProfile o page quantities = .ok p) ↔
      ∃ t, pageAt o.pages page = some t ∧ (∃ s, t.nums.lookup "s" = some s ∧ s ≠ []) ∧ t.types ≠ none ∧
        ∀ q ∈ quantitiesOf quantities, t.nums.lookup q ≠ none ∧ Shown o q := by
  constructor
  · rintro ⟨p, hp⟩
    obtain ⟨t, ls, us, ht, h1, h2, h3, h4, -⟩ := beamline_parts hp
    refine ⟨t, ht, ?_, ?_, fun q hq => ?_⟩
    · unfold profileOf Table.field at h1
      cases hs : t.nums.lookup "s" with
      | none => rw [hs] at h1; cases h1
      | some s =>
        rw [hs] at h1
        refine ⟨s, rfl, fun hn => ?_⟩
        rw [hn] at h1
        cases h1
    · intro hn
      unfold profileOf Table.field at h1
      cases hs : t.nums.lookup "s" with
      | none => rw [hs] at h1; cases h1
      | some s =>
        rw [hs, hn] at h1
        simp only [bind, Except.bind] at h1
        split_ifs at h1
    · obtain ⟨i, hi⟩ := List.mem_iff_getElem?.mp hq
      obtain ⟨c, -, hc⟩ := (mapM_all _ _ _ h2).2 i q hi
      obtain ⟨l, -, hl⟩ := (mapM_all _ _ _ h3).2 i q hi
      obtain ⟨u, -, hu⟩ := (mapM_all _ _ _ h4).2 i q hi
      refine ⟨by rw [(curveOf_ok hc).2.1]; simp, (shown_iff o q).mpr ⟨⟨l, hl⟩, u, hu⟩⟩
  · rintro ⟨t, ht, ⟨s, hs, hne⟩, hts, hq⟩
    have hmem : t ∈ o.pages := by
      unfold pageAt at ht
      split_ifs at ht
      · exact List.mem_of_getElem? ht
      · exact List.mem_of_getElem? ht
    cases hty : t.types with
    | none => exact absurd hty hts
    | some ts =>
      have hlen := hw t hmem s ts hs hty
      have hz : s.zip ts ≠ [] := by
        intro hz
        have := congrArg List.length hz
        rw [List.length_zip, hlen, Nat.min_self, List.length_nil] at this
        exact hne (List.eq_nil_of_length_eq_zero this)
      obtain ⟨pr, hpr, -⟩ := rectangles (s.zip ts) hz 1 (1 / 4)
      have h1 : profileOf t = .ok pr := by
        unfold profileOf Table.field
        rw [hs, hty]
        simp only [bind, Except.bind]
        rw [if_neg hne, hpr]
      have hsh := fun q hq' => (shown_iff o q).mp (hq q hq').2
      obtain ⟨cs, h2⟩ := mapM_ok (curveOf o t) (quantitiesOf quantities) fun q hq' => by
        obtain ⟨l, hl⟩ := (hsh q hq').1
        cases hy : t.nums.lookup q with
        | none => exact absurd hy (hq q hq').1
        | some ys =>
          refine ⟨⟨s, ys, l⟩, ?_⟩
          unfold curveOf Table.field
          rw [hs, hy, hl]
          rfl
      obtain ⟨ls, h3⟩ := mapM_ok (labelOf o) (quantitiesOf quantities) fun q hq' => (hsh q hq').1
      obtain ⟨us, h4⟩ := mapM_ok (unitsOf o) (quantitiesOf quantities) fun q hq' => (hsh q hq').2
      refine ⟨⟨pr, cs, joinComma ls ++ " (".toList ++ joinComma us ++ ")".toList⟩, ?_⟩
      unfold beamlineProfile
      rw [ht]
      simp only
      rw [h1, h2, h3, h4]
      rfl

/-- Two columns, one without symbol. -/
def exProfile : Open where
  pages := [⟨[("s", [1, 2]), ("Sx", [3, 4]), ("Cx", [5, 6])], some ["DRIF", "QUAD"]⟩]
  texts := [("Sx", ⟨"$gs$r$bx$n".toList, "m".toList, []⟩), ("Cx", ⟨[], [], "centroid".toList⟩)]

theorem exProfile_drawn : ∃ p, beamlineProfile exProfile 0 (some ["Sx", "Cx"]) = .ok p := by
  refine (beamline_profile_iff exProfile 0 (some ["Sx", "Cx"]) ?_).mpr
    ⟨_, rfl, ⟨[1, 2], rfl, by simp⟩, by simp, fun q hq => ?_⟩
  · intro t ht s ts h1 h2
    obtain rfl := List.mem_singleton.mp ht
    cases h1
    cases h2
    rfl
  · rcases List.mem_cons.mp hq with rfl | hq
    · exact ⟨by simp [List.lookup], ⟨_, rfl, fun _ => ⟨"$\\sigma_{x}$".toList, by decide +kernel⟩,
        fun _ => ⟨"$m$".toList, by decide +kernel⟩⟩⟩
    · obtain rfl := List.mem_singleton.mp hq
      exact ⟨by simp [List.lookup], ⟨_, rfl, fun h => absurd rfl h, fun h => absurd rfl h⟩⟩

/-- The labels of the two lines and of the axis. -/
example : ∃ p, beamlineProfile exProfile 0 (some ["Sx", "Cx"]) = .ok p ∧ p.curves.length = 2 ∧
    ∃ c, p.curves[1]? = some c ∧ c.xs = [1, 2] ∧ c.ys = [5, 6] ∧ c.label = "centroid".toList := by
  obtain ⟨p, hp⟩ := exProfile_drawn
  obtain ⟨t, us, ht, hl, -, -, h⟩ := beamline_profile_shows hp
  obtain ⟨c, u, txt, hc, -, htx, hx, hy, hlab, -⟩ := h 1 "Cx" rfl
  cases ht
  cases htx
  exact ⟨p, hp, hl, c, hc, (Option.some.inj hx).symm, (Option.some.inj hy).symm, hlab.1 rfl⟩

/-- **C124, the page.** Pages count from zero, and negative numbers count from the end, as in python; other numbers raise IndexError. -/
theorem beamline_profile_page (o : Open) (quantities : Option (List String)) :
    (∀ k : Nat, k < o.pages.length → ∀ t, o.pages[k]? = some t →
      beamlineProfile o k quantities = beamlineProfile ⟨[t], o.texts⟩ 0 quantities ∧
      beamlineProfile o ((k : Int) - o.pages.length) quantities = beamlineProfile ⟨[t], o.texts⟩ 0 quantities) ∧
    ∀ k : Int, (o.pages.length : Int) ≤ k ∨ k < -(o.pages.length : Int) → beamlineProfile o k quantities = .error .indexError := by
  constructor
  · intro k hk t ht
    have h0 : pageAt [t] 0 = some t := rfl
    have h1 : pageAt o.pages (k : Int) = some t := by
      unfold pageAt
      rw [if_pos (by omega)]
      simpa using ht
    have h2 : pageAt o.pages ((k : Int) - o.pages.length) = some t := by
      unfold pageAt
      rw [if_neg (by omega), if_pos (by omega)]
      have : o.pages.length - (-((k : Int) - o.pages.length)).toNat = k := by omega
      rw [this, ht]
    constructor
    · unfold beamlineProfile
      rw [h1, h0]
      rfl
    · unfold beamlineProfile
      rw [h2, h0]
      rfl
  · intro k hk
    have h : pageAt o.pages k = none := by
      unfold pageAt
      by_cases h0 : 0 ≤ k
      · rw [if_pos h0, List.getElem?_eq_none_iff]
        omega
      · rw [if_neg h0, if_neg (by omega)]
    unfold beamlineProfile
    rw [h]

/-- **C124, the default.** Without quantities, or with an empty list, the beam sizes are shown. -/
theorem beamline_profile_default (o : Open) (page : Int) :
    beamlineProfile o page none = beamlineProfile o page (some ["Sx", "Sy"]) ∧
      beamlineProfile o page (some []) = beamlineProfile o page (some ["Sx", "Sy"]) ∧
      ∀ qs p, qs ≠ [] → beamlineProfile o page (some qs) = .ok p → p.curves.length = qs.length := by
  refine ⟨rfl, rfl, fun qs p hq hp => ?_⟩
  obtain ⟨t, us, -, hl, -⟩ := beamline_profile_shows hp
  cases qs with
  | nil => exact absurd rfl hq
  | cons a l => exact hl

theorem joinComma_eq : ∀ l : List (List Char), joinComma l = [','].intercalate l
  | [] => rfl
  | [a] => by simp [joinComma, List.intercalate]
  | a :: b :: l => by
    have := joinComma_eq (b :: l)
    rw [joinComma, this]
    · simp [List.intercalate]
    · simp

/-- **C124, the axis.** Labels and units are separated by commas. -/
theorem beamline_profile_axis {o : Open} {page : Int} {quantities : Option (List String)} {p : BeamPlot}
    (h : beamlineProfile o page quantities = .ok p) :
    ∃ us : List (List Char), us.length = p.curves.length ∧
      p.ylabel = [','].intercalate (p.curves.map Curve.label) ++ " (".toList ++ [','].intercalate us ++ ")".toList := by
  obtain ⟨t, us, -, h1, h2, h3, -⟩ := beamline_profile_shows h
  exact ⟨us, by rw [h1, h2], by rw [h3, joinComma_eq, joinComma_eq]⟩

/-- The only page is also page minus one; there is no page one. -/
example : beamlineProfile exProfile (-1) (some ["Sx"]) = beamlineProfile exProfile 0 (some ["Sx"]) ∧
    beamlineProfile exProfile 1 none = .error .indexError := by
  obtain ⟨h1, h2⟩ := beamline_profile_page exProfile (some ["Sx"])
  exact ⟨(h1 0 (by decide) _ rfl).2, (beamline_profile_page exProfile none).2 1 (Or.inl (by decide))⟩

/-- The number of lines of a plot of two quantities. -/
example : ∃ p, beamlineProfile exProfile 0 (some ["Sx", "Cx"]) = .ok p ∧ p.curves.length = 2 ∧
    ∃ us : List (List Char), us.length = 2 := by
  obtain ⟨p, hp⟩ := exProfile_drawn
  have := (beamline_profile_default exProfile 0).2.2 _ p (by simp) hp
  obtain ⟨us, h1, -⟩ := beamline_profile_axis hp
  exact ⟨p, hp, this, us, by rw [h1, this]; rfl⟩

end Verif.Plot
