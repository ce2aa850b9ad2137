import Verif.Sdds.LemmasHeld
import Verif.Sdds.PropsWrite

/-!
# Properties C02 and C03: text of every kind without double quote
-/

namespace Verif.Sdds

/-- What the accessors return for each text of a writer, whatever the data. -/
theorem accessors_held {env : Env} {w : Writer} (h : HeaderWide env.ft w)
    (hp : (w.params.map WParam.name).Nodup) (hc : (w.cols.map WCol.name).Nodup) (hs : stackRows w.cols ≠ none)
    {fuel : Nat} (hfuel : w.params.length + w.cols.length + 3 + w.lineEnds ≤ fuel) (buffer : Bool) (maxStr : Nat) :
    ∃ r, openSdds env.ft fuel buffer maxStr (saveBinary env w).1 = some (.ok r) ∧
      (∀ p ∈ w.params, r.param p.name = .ok (heldParam p)) ∧ (∀ c ∈ w.cols, r.col c.name = .ok (heldCol c)) := by
  obtain ⟨body, hb⟩ := saveBinary_starts env hs
  rw [hb]
  refine ⟨_, open_held h body hfuel buffer maxStr, ?_, ?_⟩
  · intro p hp'
    unfold Reader.param lastParam
    simp only
    have := lastParam_unique ParamField.name (w.params.map heldParam) (by rw [List.map_map]; exact hp) (heldParam p)
      (List.mem_map_of_mem hp')
    have e : (heldParam p).name = p.name := rfl
    rw [e] at this
    rw [this]
    rfl
  · intro c hc'
    unfold Reader.col lastCol
    simp only
    have := lastParam_unique ColField.name (w.cols.map heldCol) (by rw [List.map_map]; exact hc) (heldCol c)
      (List.mem_map_of_mem hc')
    have e : (heldCol c).name = c.name := rfl
    rw [e] at this
    rw [this]
    rfl

/-- Text that the header carries unchanged: no character outside ASCII, no two backslashes in a
row and no comma at the end. -/
def Kept (v : Str) : Prop := Ascii v ∧ ¬ ['\\', '\\'] <:+: v ∧ v.getLast? ≠ some ','

/-- **C02, the exact condition.** For text of any characters but the double quote (not ending with
an odd number of backslashes, and line ends only where the definition is read to its end, see
`LinesOk`), the file opens, and an accessor returns the text that was given exactly if it is ASCII,
has no two backslashes in a row and does not end with a comma. Types always return. -/
theorem metadata_iff {env : Env} {w : Writer} (h : HeaderWide env.ft w)
    (hp : (w.params.map WParam.name).Nodup) (hc : (w.cols.map WCol.name).Nodup) (hs : stackRows w.cols ≠ none)
    {fuel : Nat} (hfuel : w.params.length + w.cols.length + 3 + w.lineEnds ≤ fuel) (buffer : Bool) (maxStr : Nat) :
    ∃ r, openSdds env.ft fuel buffer maxStr (saveBinary env w).1 = some (.ok r) ∧
      (∀ p ∈ w.params, ∃ f, r.param p.name = .ok f ∧ f.type = p.type ∧ (f.units = p.units ↔ Kept p.units) ∧
        (f.symbol = p.symbol ↔ Kept p.symbol) ∧ (f.description = p.description ↔ Kept p.description) ∧
        (f.formatString = p.formatStr ↔ Kept p.formatStr)) ∧
      (∀ c ∈ w.cols, ∃ f, r.col c.name = .ok f ∧ f.type = c.type ∧ (f.units = c.units ↔ Kept c.units) ∧
        (f.symbol = c.symbol ↔ Kept c.symbol) ∧ (f.description = c.description ↔ Kept c.description) ∧
        (f.formatString = c.formatStr ↔ Kept c.formatStr)) := by
  obtain ⟨r, h1, h2, h3⟩ := accessors_held h hp hc hs hfuel buffer maxStr
  refine ⟨r, h1, fun p hp => ?_, fun c hc => ?_⟩
  · have hw := h.params p hp
    exact ⟨_, h2 p hp, rfl, heldText_iff hw.units, heldText_iff hw.symbol, heldText_iff hw.description,
      heldText_iff hw.formatStr⟩
  · have hw := h.cols c hc
    exact ⟨_, h3 c hc, rfl, heldText_iff hw.units, heldText_iff hw.symbol, heldText_iff hw.description,
      heldText_iff hw.formatStr⟩

/-- **C03, the exact condition for text.** A fixed text that is not empty returns exactly under
the same condition. -/
theorem fixed_text_iff {env : Env} {w : Writer} (h : HeaderWide env.ft w)
    (hp : (w.params.map WParam.name).Nodup) (hc : (w.cols.map WCol.name).Nodup) (hs : stackRows w.cols ≠ none)
    {fuel : Nat} (hfuel : w.params.length + w.cols.length + 3 + w.lineEnds ≤ fuel) (buffer : Bool) (maxStr : Nat)
    {p : WParam} (hpm : p ∈ w.params) {s : Str} (hv : p.fixed = some (.str s)) (hne : s ≠ []) :
    ∃ r f, openSdds env.ft fuel buffer maxStr (saveBinary env w).1 = some (.ok r) ∧ r.param p.name = .ok f ∧
      (f.fixed = some (.str s) ↔ Kept s) := by
  obtain ⟨r, h1, h2, -⟩ := accessors_held h hp hc hs hfuel buffer maxStr
  have ht : (PyVal.str s).truthy = true := by
    cases s with
    | nil => exact absurd rfl hne
    | cons c s => rfl
  refine ⟨r, _, h1, h2 p hpm, ?_⟩
  have hw : QuotedText s := (h.fixed p hpm _ hv ht).2
  unfold Kept
  rw [← heldText_iff hw]
  unfold heldParam
  simp only [hv, ht, if_true, heldFixed, Option.some.injEq, Fixed.str.injEq]

/-- A parameter with a fixed text and a column, with text of other kinds. -/
def exTextKinds : Writer where
  params :=
    [{ name := "p".toList, type := "string".toList, units := "µm".toList, symbol := "a\\b".toList
       description := "two \\\\ signs, here".toList, fixed := some (.str "Å,".toList) }]
  cols :=
    [{ name := "x".toList, type := "double".toList, dtype := .f64, data := [1], units := "m,".toList
       symbol := "$x$ ".toList, description := "one\ntwo\n".toList }]

theorem exTextKinds_wide : HeaderWide exText exTextKinds := by
  have q : ∀ v : Str, '"' ∉ v → EvenEnd v → QuotedText v := fun v a c => ⟨a, c⟩
  refine ⟨⟨?_, ?_, ?_⟩, ?_, ?_⟩
  · intro p hp
    obtain rfl := List.mem_singleton.mp hp
    exact ⟨by decide +kernel, by decide +kernel, q _ (by decide +kernel) (by decide +kernel),
      q _ (by decide +kernel) (by decide +kernel),
      q _ (by decide +kernel) (by decide +kernel),
      q _ (by decide +kernel) (by decide +kernel)⟩
  · intro c hc
    obtain rfl := List.mem_singleton.mp hc
    exact ⟨by decide +kernel, by decide +kernel, q _ (by decide +kernel) (by decide +kernel),
      q _ (by decide +kernel) (by decide +kernel),
      q _ (by decide +kernel) (by decide +kernel),
      q _ (by decide +kernel) (by decide +kernel), rfl⟩
  · intro p hp v hv _
    obtain rfl := List.mem_singleton.mp hp
    obtain rfl := Option.some.inj hv
    exact ⟨rfl, q _ (by decide +kernel) (by decide +kernel)⟩
  · intro p hp
    obtain rfl := List.mem_singleton.mp hp
    exact .of_flat (by decide +kernel)
  · intro c hc
    obtain rfl := List.mem_singleton.mp hc
    exact .of_noEnd (by decide +kernel) (by decide +kernel) (by decide +kernel)

/-- The units `µm` are lost, the symbol `a\b` returns, the units `m,` are lost, the text of two lines returns. -/
example : ∃ r, openSdds exText 10 true 100 (saveBinary exEnv exTextKinds).1 = some (.ok r) ∧
    (∃ f, r.param "p".toList = .ok f ∧ f.units ≠ "µm".toList ∧ f.symbol = "a\\b".toList) ∧
    (∃ f, r.col "x".toList = .ok f ∧ f.units ≠ "m,".toList ∧ f.symbol = "$x$ ".toList ∧
      f.description = "one\ntwo\n".toList) := by
  obtain ⟨r, h1, h2, h3⟩ := metadata_iff (env := exEnv) exTextKinds_wide (by decide) (by decide) (by decide)
    (fuel := 10) (by decide) true 100
  obtain ⟨f, f1, -, f2, f3, -⟩ := h2 _ (List.mem_cons_self ..)
  obtain ⟨g, g1, -, g2, g3, g4, -⟩ := h3 _ (List.mem_cons_self ..)
  have d : ∀ v : Str, Kept v ↔ (∀ c ∈ v, c.toNat < 128) ∧ ¬ ['\\', '\\'] <:+: v ∧ v.getLast? ≠ some ',' := fun v => Iff.rfl
  refine ⟨r, h1, ⟨f, f1, fun he => ?_, f3.mpr ?_⟩, ⟨g, g1, fun he => ?_, g3.mpr ?_, g4.mpr ?_⟩⟩
  · exact absurd ((d _).mp (f2.mp he)) (by decide +kernel)
  · exact (d _).mpr (by decide +kernel)
  · exact absurd ((d _).mp (g2.mp he)) (by decide +kernel)
  · exact (d _).mpr (by decide +kernel)
  · exact (d _).mpr (by decide +kernel)

/-- The fixed text `Å,` does not return. -/
example : ∃ r f, openSdds exText 10 true 100 (saveBinary exEnv exTextKinds).1 = some (.ok r) ∧
    r.param "p".toList = .ok f ∧ f.fixed ≠ some (.str "Å,".toList) := by
  obtain ⟨r, f, h1, h2, h3⟩ := fixed_text_iff (env := exEnv) exTextKinds_wide (by decide) (by decide) (by decide)
    (fuel := 10) (by decide) true 100 (List.mem_cons_self ..) (s := "Å,".toList) rfl (by decide)
  refine ⟨r, f, h1, h2, fun he => ?_⟩
  exact absurd (h3.mp he).2.2 (by decide +kernel)

end Verif.Sdds
