import Verif.Sdds.LemmasWrite
import Verif.Sdds.LemmasRead4

/-!
# Lemmas on the writer: the data section
-/

set_option linter.unusedSimpArgs false

namespace Verif.Sdds

/-- Type of a parameter with data. -/
def valType : PyVal → SType
  | .float _ => .num .double
  | .int _ => .num .long
  | .str _ => .str

/-- Values in the data section. -/
def savedVals (ps : List WParam) : List Val := ps.filterMap fun p => p.data.map dataVal

def savedLayout (ps : List WParam) : List (Str × SType) := ps.filterMap fun p => p.data.map fun v => (p.name, valType v)

theorem packParam_ok (env : Env) {type : Str} {v : PyVal} (h : DataOk type v) :
    packParam env type v = .ok (encodeVal (dataVal v)) := by
  cases v with
  | float x =>
    have h : type = "double".toList := h
    subst h
    rfl
  | int i =>
    obtain ⟨h, h1, h2⟩ := h
    subst h
    unfold packParam
    rw [if_neg (by decide), if_pos rfl]
    simp only
    rw [if_pos ⟨h1, h2⟩]
    rfl
  | str s => exact h.elim

theorem packParams_ok (env : Env) (ps : List WParam) (h : ∀ p ∈ ps, p.Storable env.ft) :
    packParams env ps = ((savedVals ps).flatMap encodeVal, none) := by
  induction ps with
  | nil => rfl
  | cons p ps ih =>
    have ih := ih fun q hq => h q (List.mem_cons_of_mem _ hq)
    unfold packParams savedVals
    rcases h p List.mem_cons_self with ⟨v, h1, h2, h3⟩ | ⟨v, h1, h2⟩
    · simp only [h1, packParam_ok env h2, ih, List.filterMap_cons, Option.map_some, List.flatMap_cons]
      rfl
    · simp only [h1, List.filterMap_cons, Option.map_none, ih]
      rfl

theorem stackType_eq {d : ADType} (cols : List WCol) (h : ∀ c ∈ cols, c.dtype = d) (hne : cols ≠ []) :
    stackType cols = d := by
  induction cols with
  | nil => exact absurd rfl hne
  | cons c cs ih =>
    cases cs with
    | nil => exact h c List.mem_cons_self
    | cons c' cs =>
      have := ih (fun c hc => h c (List.mem_cons_of_mem _ hc)) (by simp)
      change c.dtype.join (stackType (c' :: cs)) = d
      rw [this, h c List.mem_cons_self]
      cases d <;> rfl

theorem adType_size (t : FType) : (adType t).size = t.size := by cases t <;> rfl

/-- Row `i` of the table. -/
def savedRow (w : Writer) (t : FType) (i : Nat) : List Val := w.cols.map fun c => .num t (c.data.getD i 0)

theorem rowBytes_ok (env : Env) {w : Writer} {t : FType} (h : ∀ c ∈ w.cols, c.Has t (adType t)) (i : Nat) :
    rowBytes env w.cols i = (savedRow w t i).flatMap encodeVal := by
  unfold rowBytes savedRow
  by_cases hne : w.cols = []
  · rw [hne]; rfl
  · rw [stackType_eq w.cols (fun c hc => (h c hc).1) hne, List.flatMap_map]
    apply List.flatMap_congr
    intro c hc
    rw [(h c hc).1, adType_size]
    unfold castTo
    rw [if_pos rfl]
    rfl

/-- The page a writer makes. -/
def savedPage (w : Writer) (t : FType) (rows : Nat) : Page :=
  ⟨savedVals w.params, (List.range rows).map (savedRow w t)⟩

theorem stackRows_ok {w : Writer} {rows : Nat} (h : ∀ c ∈ w.cols, c.data.length = rows)
    (h0 : w.cols = [] → rows = 0) : stackRows w.cols = some rows := by
  cases hw : w.cols with
  | nil => rw [h0 hw]; rfl
  | cons c cs =>
    rw [hw] at h
    simp only [stackRows]
    rw [if_pos, h c List.mem_cons_self]
    rw [List.all_eq_true]
    intro d hd
    rw [decide_eq_true_eq, h c List.mem_cons_self, h d (List.mem_cons_of_mem _ hd)]

theorem saveBinary_ok {env : Env} {w : Writer} {t : FType} {rows : Nat} (h : w.Ok env.ft t rows) :
    saveBinary env w =
      (utf8 (headerText env.ft w "binary".toList) ++ encodePage (savedPage w t rows), none) := by
  have hlt : ¬ 4294967296 ≤ rows := by have := h.short; omega
  unfold saveBinary
  rw [stackRows_ok h.lengths h.noCols]
  simp only
  rw [if_neg hlt, packParams_ok env _ h.storable]
  simp only
  congr 1
  unfold encodePage savedPage tableBytes
  simp only [List.length_map, List.length_range, List.flatMap_map, List.append_assoc]
  congr 4
  funext i
  exact rowBytes_ok env h.has i

theorem savedVals_fits {ft : FloatText} (m : Nat) (ps : List WParam) (h : ∀ p ∈ ps, p.Storable ft) :
    List.Forall₂ (fun f v => Fits m f.2 v) (savedLayout ps) (savedVals ps) := by
  induction ps with
  | nil => exact .nil
  | cons p ps ih =>
    have ih := ih fun q hq => h q (List.mem_cons_of_mem _ hq)
    unfold savedLayout savedVals
    rcases h p List.mem_cons_self with ⟨v, h1, h2, h3⟩ | ⟨v, h1, h2⟩
    · simp only [h1, List.filterMap_cons, Option.map_some]
      refine .cons ?_ ih
      cases v with
      | float x => exact ⟨rfl, x.isLt⟩
      | int i => exact ⟨rfl, toBits_lt 4 i⟩
      | str s => exact h2.elim
    · simp only [h1, List.filterMap_cons, Option.map_none]
      exact ih

theorem savedPage_ok {ft : FloatText} {w : Writer} {t : FType} {rows : Nat} (m : Nat) (h : w.Ok ft t rows) :
    PageOk m ⟨savedLayout w.params, w.cols.map fun c => (c.name, .num t)⟩ (savedPage w t rows) := by
  refine ⟨savedVals_fits m _ h.storable, ?_, ?_⟩
  · intro row hrow
    obtain ⟨i, hi, rfl⟩ := List.mem_map.mp hrow
    unfold savedRow
    rw [List.forall₂_map_left_iff, List.forall₂_map_right_iff, List.forall₂_same]
    intro c hc
    refine ⟨rfl, ?_⟩
    by_cases hlt : i < c.data.length
    · rw [List.getD_eq_getElem?_getD, List.getElem?_eq_getElem hlt, Option.getD_some]
      exact (h.has c hc).2.2 _ (List.getElem_mem _)
    · rw [List.getD_eq_getElem?_getD, List.getElem?_eq_none (by omega), Option.getD_none]
      exact Nat.pow_pos (by decide)
  · refine ⟨?_, ?_, ?_⟩
    · change ((List.range rows).map (savedRow w t)).length < _
      rw [List.length_map, List.length_range]
      exact h.short
    · intro hmem
      unfold savedPage savedVals at hmem
      obtain ⟨p, hp, hv⟩ := List.mem_filterMap.mp hmem
      rcases h.storable p hp with ⟨v, h1, h2, h3⟩ | ⟨v, h1, h2⟩
      · rw [h1] at hv
        cases v with
        | float x => simp [dataVal] at hv
        | int i => simp [dataVal] at hv
        | str s => exact h2.elim
      · rw [h1] at hv
        simp at hv
    · intro row hrow hlast
      obtain ⟨i, hi, rfl⟩ := List.mem_map.mp hrow
      obtain ⟨c, hc, hv⟩ := List.mem_map.mp (List.mem_of_getLast? hlast)
      simp at hv

theorem numType_name {type : Str} {t : FType} (h : numType type = some t) : type = (SType.num t).name := by
  simp only [numType] at h
  split_ifs at h with h1 h2 h3
  · cases h; exact h1
  · cases h; exact h2
  · cases h; exact h3

theorem savedParams_fields {ft : FloatText} (ps : List WParam) (h : ∀ p ∈ ps, p.Storable ft) :
    ((ps.map readParam).filter fun p => p.fixed = none).map (fun p => (p.name, p.type)) =
      (savedLayout ps).map fun f => (f.1, f.2.name) := by
  induction ps with
  | nil => rfl
  | cons p ps ih =>
    have ih := ih fun q hq => h q (List.mem_cons_of_mem _ hq)
    rcases h p List.mem_cons_self with ⟨v, h1, h2, h3⟩ | ⟨v, h1, h2, h3, h4⟩
    · have hn : (readParam p).fixed = none := by
        unfold readParam
        cases hf : p.fixed with
        | none => rfl
        | some f => simp [h3 f hf]
      rw [List.map_cons, List.filter_cons_of_pos (by rw [hn]; rfl), List.map_cons, ih]
      unfold savedLayout
      simp only [List.filterMap_cons, h1, Option.map_some, List.map_cons]
      congr 1
      have : p.type = (valType v).name := by
        cases v with
        | float x => exact h2
        | int i => exact h2.1
        | str s => exact h2.elim
      rw [← this]; rfl
    · have hn : (readParam p).fixed = some (fixedVal v) := by
        unfold readParam
        simp only [h2, h3, if_true]
      rw [List.map_cons, List.filter_cons_of_neg (by rw [hn]; simp), ih]
      unfold savedLayout
      simp only [List.filterMap_cons, h1, Option.map_none]

theorem savedLayout_names (ps : List WParam) :
    (savedLayout ps).map Prod.fst = (ps.filter (·.data.isSome)).map WParam.name := by
  induction ps with
  | nil => rfl
  | cons p ps ih =>
    unfold savedLayout at ih ⊢
    cases hd : p.data with
    | none => simp only [List.filterMap_cons, hd, Option.map_none, ih]; rw [List.filter_cons_of_neg (by simp [hd])]
    | some v =>
      rw [List.filter_cons_of_pos (by simp [hd])]
      simp only [List.filterMap_cons, hd, Option.map_some, ih, List.map_cons]

theorem savedLayout_ok {w : Writer} {t : FType} (h : w.Names) :
    Layout.Ok ⟨savedLayout w.params, w.cols.map fun c => (c.name, .num t)⟩ := by
  unfold Layout.Ok
  simp only [savedLayout_names, List.map_map, Function.comp_def]
  refine ⟨h.params, ?_, h.cols, ?_⟩
  · intro hm
    obtain ⟨p, hp, hn⟩ := List.mem_map.mp hm
    exact h.resParams p (List.mem_filter.mp hp).1 hn
  · intro hm
    obtain ⟨c, hc, hn⟩ := List.mem_map.mp hm
    exact h.resCols c hc hn

theorem zip_savedVals (ps : List WParam) :
    ((savedLayout ps).map Prod.fst).zip (savedVals ps) =
      ps.filterMap fun p => p.data.map fun v => (p.name, dataVal v) := by
  induction ps with
  | nil => rfl
  | cons p ps ih =>
    unfold savedLayout savedVals at ih ⊢
    cases hd : p.data with
    | none => simp only [List.filterMap_cons, hd, Option.map_none, ih]
    | some v => simp only [List.filterMap_cons, hd, Option.map_some, List.map_cons, List.zip_cons_cons, ih]

theorem zip_savedRow (w : Writer) (t : FType) (i : Nat) :
    ((w.cols.map fun c => (c.name, SType.num t)).map Prod.fst).zip (savedRow w t i) =
      w.cols.map fun c => (c.name, .num t (c.data.getD i 0)) := by
  unfold savedRow
  rw [List.map_map, List.zip_map']
  rfl

/-- The whole way: save, open, read. -/
theorem save_open_read {env : Env} {w : Writer} {t : FType} {rows : Nat} (h : w.Ok env.ft t rows) {fuel : Nat}
    (hfuel : w.params.length + w.cols.length + 3 ≤ fuel) (buffer : Bool) (maxStr : Nat)
    (hb : buffer = false → isSpaceByte (UInt8.ofNat (rows / 256)) = false) :
    ∃ r, openSdds env.ft fuel buffer maxStr (saveBinary env w).1 = some (.ok r) ∧
      r.params = w.params.map readParam ∧ r.cols = w.cols.map readCol ∧
      r.read fuel none = some (.ok ⟨[[savedParams w rows]],
        if rows = 0 ∨ w.cols = [] then [] else [savedRows w t rows]⟩) := by
  rw [saveBinary_ok h]
  refine ⟨_, open_header h.header _ hfuel buffer maxStr, rfl, rfl, ?_⟩
  have hd : Reader.Describes {
        file := utf8 (headerText env.ft w "binary".toList) ++ encodePage (savedPage w t rows),
        buffer := buffer, maxStr := maxStr,
        headerEnd := (utf8 (headerText env.ft w "binary".toList)).length,
        lineCount := w.params.length + w.cols.length + 2,
        params := w.params.map readParam, cols := w.cols.map readCol, ascii := false,
        noRowCounts := false } ⟨savedLayout w.params, w.cols.map fun c => (c.name, .num t)⟩ := by
    refine ⟨rfl, rfl, savedParams_fields _ h.storable, ?_⟩
    simp only [List.map_map, Function.comp_def]
    apply List.map_congr_left
    intro c hc
    rw [← numType_name (h.has c hc).2.1]
    rfl
  rw [Reader.read_ok hd (savedLayout_ok h.toNames) none (by simp) (Or.inl rfl) (header := utf8 (headerText env.ft w "binary".toList))
    (pages := [savedPage w t rows]) ?_ ?_ ?_ rfl ?_]
  · have hrc : (savedPage w t rows).rows.length = rows := by
      change ((List.range rows).map _).length = rows
      rw [List.length_map, List.length_range]
    have hpr : paramRecord ⟨savedLayout w.params, w.cols.map fun c => (c.name, SType.num t)⟩ (savedPage w t rows) =
        savedParams w rows := by
      unfold paramRecord savedParams
      rw [hrc]
      exact congrArg _ (zip_savedVals _)
    have hrr : rowRecords ⟨savedLayout w.params, w.cols.map fun c => (c.name, SType.num t)⟩ (savedPage w t rows) =
        savedRows w t rows := by
      unfold rowRecords savedRows savedPage
      simp only []
      rw [List.map_map]
      apply List.map_congr_left
      intro i _
      exact zip_savedRow w t i
    have hpick : pick none 0 [savedPage w t rows] = [savedPage w t rows] := rfl
    rw [hpick]
    unfold pagesOf
    by_cases h0 : rows = 0 ∨ w.cols = []
    · rw [if_pos h0]
      have : hasData ⟨savedLayout w.params, w.cols.map fun c => (c.name, SType.num t)⟩ (savedPage w t rows) = false := by
        unfold hasData
        rcases h0 with h0 | h0
        · rw [h0]; simp [savedPage]
        · simp [h0]
      rw [List.filter_cons_of_neg (by simp [this])]
      simp only [List.filter_nil, List.map_nil, List.map_cons, hpr]
      rfl
    · rw [if_neg h0]
      have : hasData ⟨savedLayout w.params, w.cols.map fun c => (c.name, SType.num t)⟩ (savedPage w t rows) = true := by
        unfold hasData
        push Not at h0
        simp [savedPage, h0.1, h0.2]
      rw [List.filter_cons_of_pos this]
      simp only [List.filter_nil, List.map_nil, List.map_cons, hpr, hrr]
      rfl
  · intro pg hpg
    rw [List.mem_singleton.mp hpg]
    exact savedPage_ok maxStr h
  · intro hbf pg hpg
    rw [List.mem_singleton.mp hpg]
    unfold MarkOk
    have hrc : (savedPage w t rows).rows.length = rows := by
      change ((List.range rows).map _).length = rows
      rw [List.length_map, List.length_range]
    rw [hrc]
    exact hb hbf
  · simp
  · have : ([savedPage w t rows] : List Page).length = 1 := rfl
    omega

end Verif.Sdds
