import Verif.Kinematic.PropsCommand

namespace Verif.Kinematic

theorem filterMap_two {α β : Type} {f : α → Option β} {l : List α} {a b : α} {x y : β} (ha : a ∈ l) (hb : b ∈ l) (hab : a ≠ b) (fa : f a = some x) (fb : f b = some y) :
    ∃ u v w, l.filterMap f = u :: v :: w := by
  obtain ⟨s, t, rfl⟩ := List.append_of_mem ha
  have hlen : 2 ≤ ((s ++ a :: t).filterMap f).length := by
    rw [List.filterMap_append, List.filterMap_cons_some fa, List.length_append, List.length_cons]
    rcases List.mem_append.1 hb with h | h
    · have : 0 < (s.filterMap f).length := List.length_pos_of_mem (List.mem_filterMap.2 ⟨b, h, fb⟩)
      omega
    · rcases List.mem_cons.1 h with h | h
      · exact absurd h.symm hab
      · have : 0 < (t.filterMap f).length := List.length_pos_of_mem (List.mem_filterMap.2 ⟨b, h, fb⟩)
        omega
  match hx : (s ++ a :: t).filterMap f with
  | [] => rw [hx] at hlen; simp at hlen
  | [_] => rw [hx] at hlen; simp at hlen
  | u :: v :: w => exact ⟨u, v, w, rfl⟩

/-- **C137, abbreviations.** The beginning of two long names that is not a name itself is never accepted, with or without an equal sign behind it. -/
theorem command_ambiguous (parse : Str → Option ℝ) (argv : List Str) {t f g : Str} {o p : Opt} (hf : f ∈ (namesOf o).map String.toList)
    (hg : g ∈ (namesOf p).map String.toList) (hfg : f ≠ g) (hl : 2 < t.length) (hd : "--".toList <+: t) (pf : t <+: f) (pg : t <+: g)
    (hn : ∀ o, t ∉ (namesOf o).map String.toList) (hm : t ∈ argv ∨ ∃ v, t ++ '=' :: v ∈ argv) (r : Args) : parseArgs parse argv ≠ .ok r := by
  have hlk : optionStrings.lookup t = none := by
    cases hk : optionStrings.lookup t with
    | none => rfl
    | some o' => exact absurd (table_back _ (mem_of_lookup hk)) (hn o')
  have htn := table_names o (mem_allOpts o) f hf
  have hte := table_names p (mem_allOpts p) g hg
  have heq : '=' ∉ t := fun hc => htn.2.1 (pf.subset hc)
  have htwo : ∀ e : Option Str, ∃ x y l, (optionStrings.filterMap fun x => if t.isPrefixOf x.1 then some (x.2, e) else none) = x :: y :: l := by
    intro e
    exact filterMap_two htn.1 hte.1 (fun h => hfg (congrArg Prod.fst h)) (if_pos (List.isPrefixOf_iff_prefix.2 pf)) (if_pos (List.isPrefixOf_iff_prefix.2 pg))
  have hhead : t.head? = some '-' := by
    obtain ⟨u, rfl⟩ := hd
    rfl
  have k1 : parseOptional t = .error .usage := by
    unfold parseOptional
    have h1 : t ≠ "--".toList := by
      intro h; rw [h] at hl; revert hl; decide
    rw [if_neg h1, if_neg (by rw [hhead]; simp), hlk]
    simp only
    rw [if_neg (by omega), splitEq_none heq]
    simp only [Option.bind]
    obtain ⟨x, y, l, h3⟩ := htwo none
    have h3 : optionTuples t = x :: y :: l := by
      unfold optionTuples
      rw [if_pos (List.isPrefixOf_iff_prefix.2 hd), splitEq_none heq]
      exact h3
    rw [h3]
  have k2 : ∀ v, parseOptional (t ++ '=' :: v) = .error .usage := by
    intro v
    have hlk2 : optionStrings.lookup (t ++ '=' :: v) = none := by
      cases hk : optionStrings.lookup (t ++ '=' :: v) with
      | none => rfl
      | some o' => exact absurd (by simp) (table_names o' (mem_allOpts o') _ (table_back _ (mem_of_lookup hk))).2.1
    have hne2 : t ++ '=' :: v ≠ "--".toList := by
      intro h
      have : '=' ∈ "--".toList := h ▸ (by simp)
      revert this
      decide
    have hh : (t ++ '=' :: v).head? = some '-' := by
      cases t with
      | nil => simp at hhead
      | cons c n => exact hhead
    unfold parseOptional
    rw [if_neg hne2, if_neg (by rw [hh]; simp), hlk2]
    simp only
    rw [if_neg (by simp; omega), splitEq_append heq]
    simp only [Option.bind, hlk, Option.map]
    obtain ⟨x, y, l, h3⟩ := htwo (some v)
    have h3 : optionTuples (t ++ '=' :: v) = x :: y :: l := by
      unfold optionTuples
      rw [if_pos (List.isPrefixOf_iff_prefix.2 (hd.trans (List.prefix_append _ _))), splitEq_append heq]
      exact h3
    rw [h3]
  intro hr
  obtain ⟨ts, n, _, _, h⟩ := parseArgs_tokens hr
  rcases hm with hm | ⟨v, hm⟩
  · obtain ⟨_, _, h'⟩ := h _ hm
    rw [k1] at h'
    cases h'
  · obtain ⟨_, _, h'⟩ := h _ hm
    rw [k2] at h'
    cases h'

/-- Example. `--b` begins `--beta` and `--brho`, `--m=5` begins `--mass` and `--momentum`. -/
example (a : Args) : parseArgs exParse ["--b".toList, "5".toList] ≠ .ok a ∧ parseArgs exParse ["--m=5".toList] ≠ .ok a :=
  ⟨command_ambiguous exParse _ (f := "--beta".toList) (g := "--brho".toList) (o := .q .beta) (p := .q .brho) (t := "--b".toList) (by decide +kernel) (by decide +kernel) (by decide) (by decide) (by decide)
    (by decide) (by decide) (fun o => (by decide +kernel : ∀ o ∈ allOpts, "--b".toList ∉ (namesOf o).map String.toList) o (mem_allOpts o)) (Or.inl (List.mem_cons_self ..)) a,
   command_ambiguous exParse _ (f := "--mass".toList) (g := "--momentum".toList) (o := .mass) (p := .q .momentum) (t := "--m".toList) (by decide +kernel) (by decide +kernel) (by decide) (by decide) (by decide)
    (by decide) (by decide) (fun o => (by decide +kernel : ∀ o ∈ allOpts, "--m".toList ∉ (namesOf o).map String.toList) o (mem_allOpts o)) (Or.inr ⟨"5".toList, List.mem_cons_self ..⟩) a⟩

end Verif.Kinematic
