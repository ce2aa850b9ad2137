import Verif.Sdds.LemmasRead4
import Verif.Sdds.LemmasHeader

/-!
# Lemmas on whole files
-/

namespace Verif.Sdds

theorem SType.name_mem (t : SType) : t.name ∈ dataTypes := by
  cases t with
  | num t => cases t <;> decide
  | str => decide

theorem params_of {ft : FloatText} (as : List (List Attr)) (fs : List (Str × SType))
    (h : (as.filter fun as => attrVal as "fixed_value".toList = none).map nameType =
      fs.map fun f => (f.1, f.2.name))
    (hf : ∀ a ∈ as, ∀ v, attrVal a "fixed_value".toList = some v → ∃ x, parseFixed ft (nameType a).2 v = .ok x) :
    ∃ ps, as.mapM (paramOf ft) = .ok ps ∧
      (ps.filter fun p => p.fixed = none).map (fun p => (p.name, p.type)) = fs.map fun f => (f.1, f.2.name) := by
  induction as generalizing fs with
  | nil =>
    refine ⟨[], rfl, ?_⟩
    simpa using h
  | cons a as ih =>
    cases hv : attrVal a "fixed_value".toList with
    | none =>
      rw [List.filter_cons_of_pos (by rw [hv]; rfl), List.map_cons] at h
      cases fs with
      | nil => simp at h
      | cons f fs =>
        rw [List.map_cons, List.cons.injEq] at h
        obtain ⟨ps, h1, h2⟩ := ih fs h.2 fun b hb => hf b (List.mem_cons_of_mem _ hb)
        have ht : (nameType a).2 ∈ dataTypes := by rw [h.1]; exact f.2.name_mem
        have hp : ∃ p, paramOf ft a = .ok p ∧ p.fixed = none ∧ (p.name, p.type) = nameType a := by
          unfold paramOf
          simp only [hv]
          rw [if_pos (show (attrVal a "type".toList).getD [] ∈ dataTypes from ht)]
          exact ⟨_, rfl, rfl, rfl⟩
        obtain ⟨p, hp1, hp2, hp3⟩ := hp
        refine ⟨p :: ps, mapM_ok_cons _ _ _ _ _ hp1 h1, ?_⟩
        rw [List.filter_cons_of_pos (by rw [hp2]; rfl), List.map_cons, h2, hp3, h.1]
        rfl
    | some v =>
      rw [List.filter_cons_of_neg (by rw [hv]; simp)] at h
      obtain ⟨ps, h1, h2⟩ := ih fs h fun b hb => hf b (List.mem_cons_of_mem _ hb)
      obtain ⟨x, hx⟩ := hf a List.mem_cons_self v hv
      have hp : ∃ p, paramOf ft a = .ok p ∧ p.fixed = some x := by
        unfold paramOf
        simp only [hv]
        have hx : parseFixed ft ((attrVal a "type".toList).getD []) v = .ok x := hx
        rw [hx]
        exact ⟨_, rfl, rfl⟩
      obtain ⟨p, hp1, hp2⟩ := hp
      refine ⟨p :: ps, mapM_ok_cons _ _ _ _ _ hp1 h1, ?_⟩
      rw [List.filter_cons_of_neg (by rw [hp2]; simp), h2]

theorem cols_of (as : List (List Attr)) (fs : List (Str × SType))
    (h : as.map nameType = fs.map fun f => (f.1, f.2.name))
    (hf : ∀ a ∈ as, attrVal a "field_length".toList = none) :
    ∃ cs, as.mapM colOf = .ok cs ∧
      cs.map (fun c => (c.name, c.type)) = fs.map fun f => (f.1, f.2.name) := by
  induction as generalizing fs with
  | nil =>
    refine ⟨[], rfl, ?_⟩
    simpa using h
  | cons a as ih =>
    cases fs with
    | nil => simp at h
    | cons f fs =>
      rw [List.map_cons, List.map_cons, List.cons.injEq] at h
      obtain ⟨cs, h1, h2⟩ := ih fs h.2 fun b hb => hf b (List.mem_cons_of_mem _ hb)
      have ht : (nameType a).2 ∈ dataTypes := by rw [h.1]; exact f.2.name_mem
      have hfl := hf a List.mem_cons_self
      have hc : ∃ c, colOf a = .ok c ∧ (c.name, c.type) = nameType a := by
        unfold colOf
        simp only [hfl]
        rw [if_neg (fun hh => hh ht), if_neg (by simp)]
        exact ⟨_, rfl, rfl⟩
      obtain ⟨c, hc1, hc2⟩ := hc
      refine ⟨c :: cs, mapM_ok_cons _ _ _ _ _ hc1 h1, ?_⟩
      rw [List.map_cons, hc2, h.1, h2]
      rfl

/-- Opening a file whose header announces the layout. -/
theorem open_file {ft : FloatText} {d : Doc} {l : Layout} (h : d.Announces ft l) (pages : List Page) {fuel : Nat}
    (hfuel : d.comments.length + d.namelists.length + 2 ≤ fuel) (buffer : Bool) (maxStr : Nat) :
    ∃ r, openSdds ft fuel buffer maxStr (fileBytes d pages) = some (.ok r) ∧ r.Describes l ∧
      r.file = utf8 d.text ++ pages.flatMap encodePage ∧ r.headerEnd = (utf8 d.text).length ∧
      r.buffer = buffer ∧ r.maxStr = maxStr := by
  obtain ⟨ps, hp1, hp2⟩ := params_of _ _ h.params h.fixed
  obtain ⟨cs, hc1, hc2⟩ := cols_of _ _ h.cols h.noLength
  refine ⟨_, open_doc ft h.ok _ hfuel buffer maxStr hp1 hc1 h.mode, ⟨rfl, ?_, hp2, hc2⟩, rfl, rfl, rfl, rfl⟩
  simp only [h.counts]
  rfl

theorem pick_none (k : Nat) (pages : List Page) : pick none k pages = pages := by
  induction pages generalizing k with
  | nil => rfl
  | cons pg pages ih =>
    unfold pick
    rw [if_pos (show wantedPage none k = true from rfl), ih]

theorem pick_some (s : List Nat) (k : Nat) (pages : List Page) :
    pick (some s) k pages = ((pages.zipIdx k).filter fun p => s.contains p.2).map Prod.fst := by
  induction pages generalizing k with
  | nil => rfl
  | cons pg pages ih =>
    unfold pick
    rw [List.zipIdx_cons]
    by_cases h : s.contains k = true
    · rw [if_pos (by exact h), List.filter_cons_of_pos (by exact h), List.map_cons, ih]
    · rw [if_neg (by exact h), List.filter_cons_of_neg (by exact h), ih]

theorem atPages_map {α β : Type} (s : List Nat) (f : α → β) (xs : List α) :
    atPages s (xs.map f) = (atPages s xs).map f := by
  unfold atPages
  rw [List.zipIdx_map, List.filter_map, List.map_map, List.map_map]
  rfl

theorem pick_atPages (s : List Nat) (pages : List Page) : pick (some s) 0 pages = atPages s pages :=
  pick_some s 0 pages

theorem atPages_subset {α : Type} (s : List Nat) (xs : List α) : ∀ x ∈ atPages s xs, x ∈ xs := by
  intro x hx
  obtain ⟨p, hp, rfl⟩ := List.mem_map.mp hx
  have := (List.mem_filter.mp hp).1
  exact List.fst_mem_of_mem_zipIdx this

theorem concat_same {ps : List (List Record)} {n : Nat} (h : ∀ p ∈ ps, p.length = n) : concat ps = .ok ps := by
  cases ps with
  | nil => rfl
  | cons p ps =>
    simp only [concat]
    rw [if_pos]
    rw [List.all_eq_true]
    intro q hq
    rw [decide_eq_true_eq, h q (List.mem_cons_of_mem _ hq), h p List.mem_cons_self]

theorem concat_ragged {ps : List (List Record)} (h : ∃ p ∈ ps, ∃ q ∈ ps, p.length ≠ q.length) :
    concat ps = .error .valueError := by
  obtain ⟨p, hp, q, hq, hne⟩ := h
  cases ps with
  | nil => simp at hp
  | cons a ps =>
    simp only [concat]
    rw [if_neg]
    intro hall
    have hall : ∀ x ∈ ps, x.length = a.length := by
      intro x hx
      simpa using List.all_eq_true.mp hall x hx
    have key : ∀ x ∈ a :: ps, x.length = a.length := by
      intro x hx
      rcases List.mem_cons.mp hx with rfl | hx
      · rfl
      · exact hall x hx
    exact hne (by rw [key p hp, key q hq])

theorem filter_hasData {l : Layout} {pages : List Page} (hc : l.cols ≠ []) (hn : ∀ pg ∈ pages, pg.rows ≠ []) :
    pages.filter (hasData l) = pages := by
  rw [List.filter_eq_self]
  intro pg hpg
  unfold hasData
  have := hn pg hpg
  simp [hc, this]

end Verif.Sdds
