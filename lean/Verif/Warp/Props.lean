import Verif.Warp.Writer
import Mathlib.Data.List.Forall2

/-!
# Property C39: the Warp file defines each name once and before use

The full statement: the text is the import line, one definition for every distinct name of the
elements in upper case, and the line with all elements. It is false for a second call on the same
writer (`warp_again_fails`) and for an empty beamline (`warp_empty_fails`).
-/

namespace Verif.Warp

open Verif.Lattice

variable {R : Type}

/-- The text of a value: numbers by the formatting function, texts as they are. -/
def valueText (F : Fmt R) (v : PVal R) : Str :=
  match v with
  | .num x => F.text x
  | .str s => s

/-- A length that is kept: a number that counts as true, or a text that is not empty. -/
def Kept (F : Fmt R) (v : PVal R) : Prop :=
  match v with
  | .num x => F.truthy x = true
  | .str s => s ≠ []

theorem val_eq (F : Fmt R) (v : PVal R) : F.val v = valueText F v := by cases v <;> rfl

theorem true_iff (F : Fmt R) (v : PVal R) : F.true v = true ↔ Kept F v := by
  cases v with
  | num x => rfl
  | str s =>
    unfold Fmt.true Kept
    cases s <;> simp

/-- `s` is the text of the list of parameters: each is looked up in the element. -/
inductive ParamText (F : Fmt R) (x : Elem R) : List Str → Str → Prop
  | nil : ParamText F x [] []
  | cons {p ps v s} : Params.getItem x.params p = some v → ParamText F x ps s →
      ParamText F x (p :: ps) (" ".toList ++ p ++ "=".toList ++ valueText F v ++ ",".toList ++ s)

/-- `s` defines the element `x` under its name in upper case: with the Warp type and parameters of
its type, or as a drift of the same length if the type is unknown. -/
inductive Defines (F : Fmt R) (m : Mapping) (x : Elem R) : Str → Prop
  | known {t ps s} : dget m (upper x.type) = some (t, ps) → ParamText F x ps s →
      Defines F m x (upper x.name ++ " = wp.".toList ++ t ++ "(".toList ++ s ++ ")\n".toList)
  | drift {v} : dget m (upper x.type) = none → Params.get x.params "l".toList = some v → Kept F v →
      Defines F m x (upper x.name ++ " = wp.Drft( l=".toList ++ valueText F v ++ ",)\n".toList)
  | point : dget m (upper x.type) = none → (∀ v, Params.get x.params "l".toList = some v → ¬ Kept F v) →
      Defines F m x (upper x.name ++ " = wp.Drft( l=0.0,)\n".toList)

/-- `ds` are the elements to define: the first ones of `xs` for each name that is not in `known`, in the
order in which the names appear first. -/
structure Firsts (xs : List (Elem R)) (known : List Str) (ds : List (Elem R)) : Prop where
  sub : List.Sublist ds xs
  once : (ds.map fun x => upper x.name).Nodup
  new : ∀ d ∈ ds, upper d.name ∉ known
  all : ∀ x ∈ xs, upper x.name ∈ known ∨ ∃ d ∈ ds, upper d.name = upper x.name
  first : ∀ d ∈ ds, xs.find? (fun x => upper x.name = upper d.name) = some d
  order : ds.Pairwise fun a b => xs.findIdx (fun x => upper x.name = upper a.name) < xs.findIdx (fun x => upper x.name = upper b.name)

theorem paramText_iff (F : Fmt R) (x : Elem R) (ps : List Str) (s : Str) : parametersText F x ps = .ok s ↔ ParamText F x ps s := by
  induction ps generalizing s with
  | nil =>
    constructor
    · intro h; cases h; exact .nil
    · intro h; cases h; rfl
  | cons p ps ih =>
    unfold parametersText
    cases hv : Params.getItem x.params p with
    | none =>
      constructor
      · intro h; cases h
      · intro h; cases h with | cons h1 _ => rw [hv] at h1; cases h1
    | some v =>
      simp only
      cases hs : parametersText F x ps with
      | error e =>
        constructor
        · intro h; cases h
        · intro h
          cases h with | cons h1 h2 => rw [(ih _).2 h2] at hs; cases hs
      | ok t =>
        constructor
        · intro h; cases h; exact .cons hv ((ih t).1 hs)
        · intro h
          cases h with | cons h1 h2 =>
            rw [hv] at h1; cases h1
            rw [(ih _).2 h2] at hs; cases hs; rfl

theorem defines_iff (F : Fmt R) (m : Mapping) (x : Elem R) (s : Str) : definition F m x = .ok s ↔ Defines F m x s := by
  unfold definition
  cases hm : dget m (upper x.type) with
  | some tp =>
    obtain ⟨t, ps⟩ := tp
    simp only
    cases hp : parametersText F x ps with
    | ok u =>
      have hu := (paramText_iff F x ps u).1 hp
      constructor
      · intro h
        cases h
        have := Defines.known hm hu
        simpa [elementText, List.append_assoc] using this
      · intro h
        cases h with
        | known h1 h2 =>
          rw [hm] at h1; cases h1
          rw [(paramText_iff F x _ _).2 h2] at hp; cases hp
          simp [elementText, List.append_assoc]
        | drift h1 => rw [hm] at h1; cases h1
        | point h1 => rw [hm] at h1; cases h1
    | error e =>
      constructor
      · intro h; cases h
      · intro h
        cases h with
        | known h1 h2 =>
          rw [hm] at h1; cases h1
          rw [(paramText_iff F x _ _).2 h2] at hp; cases hp
        | drift h1 => rw [hm] at h1; cases h1
        | point h1 => rw [hm] at h1; cases h1
  | none =>
    simp only
    unfold driftLength
    cases hl : Params.get x.params "l".toList with
    | none =>
      simp only
      constructor
      · intro h
        cases h
        have := Defines.point (F := F) hm (by intro v hv; rw [hl] at hv; cases hv)
        simpa [elementText, parameterText, List.append_assoc] using this
      · intro h
        cases h with
        | known h1 => rw [hm] at h1; cases h1
        | drift _ h1 => rw [hl] at h1; cases h1
        | point _ _ => simp [elementText, parameterText, List.append_assoc]
    | some v =>
      simp only
      cases ht : F.true v with
      | true =>
        constructor
        · intro h
          cases h
          have := Defines.drift hm hl ((true_iff F v).1 ht)
          simpa [elementText, parameterText, List.append_assoc, val_eq] using this
        · intro h
          cases h with
          | known h1 => rw [hm] at h1; cases h1
          | drift _ h1 _ => rw [hl] at h1; cases h1; simp [elementText, parameterText, List.append_assoc, val_eq]
          | point _ h1 => exact absurd ((true_iff F v).1 ht) (h1 v hl)
      | false =>
        constructor
        · intro h
          cases h
          have := Defines.point (F := F) hm (by intro w hv; rw [hl] at hv; cases hv; rw [← true_iff, ht]; decide)
          simpa [elementText, parameterText, List.append_assoc] using this
        · intro h
          cases h with
          | known h1 => rw [hm] at h1; cases h1
          | drift _ h1 h2 => rw [hl] at h1; cases h1; rw [(true_iff F v).2 h2] at ht; cases ht
          | point _ _ => simp [elementText, parameterText, List.append_assoc]

/-- The loop over elements that come from `xs` by a function that keeps the names, without an
exception. -/
theorem writeElems_map {F : Fmt R} {m : Mapping} (f : Elem R → Elem R) (xs : List (Elem R)) (hf : ∀ x ∈ xs, (f x).name = x.name)
    (s s' : WriteState) (hr : writeElems F m (xs.map f) s = (s', none)) :
    ∃ ds ts, Firsts xs s.names ds ∧ List.Forall₂ (fun x t => Defines F m (f x) t) ds ts ∧
      s'.names = s.names ++ ds.map (fun x => upper x.name) ∧
      s'.contents = s.contents ++ ts.flatten ∧ s'.line = s.line ++ xs.flatMap (fun x => upper x.name ++ " + ".toList) := by
  induction xs generalizing s with
  | nil =>
    cases hr
    exact ⟨[], [], ⟨.slnil, by simp, by simp, by simp, by simp, .nil⟩, .nil, by simp, by simp, by simp⟩
  | cons x xs ih =>
    rw [List.map_cons] at hr
    unfold writeElems at hr
    have hfx := hf x (by simp)
    split at hr
    · rename_i s1 h1
      obtain ⟨ds, ts, g, hd, hn, hc, hl⟩ := ih (fun y hy => hf y (by simp [hy])) s1 hr
      unfold writeElem at h1
      simp only [hfx] at h1
      have hidx : ∀ d ∈ ds, upper x.name ≠ upper d.name →
          (x :: xs).findIdx (fun x => upper x.name = upper d.name) = xs.findIdx (fun x => upper x.name = upper d.name) + 1 := by
        intro d _ hne
        rw [List.findIdx_cons, decide_eq_false hne]; rfl
      split_ifs at h1 with hmem
      · cases h1
        have hmem : upper x.name ∈ s.names := by simpa using hmem
        simp only at g hn hc hl
        have hne : ∀ d ∈ ds, upper x.name ≠ upper d.name := fun d hd he => g.new d hd (he ▸ hmem)
        refine ⟨ds, ts, ⟨g.sub.cons _, g.once, g.new, ?_, ?_, ?_⟩, hd, hn, hc, ?_⟩
        · intro y hy
          rcases List.mem_cons.mp hy with rfl | hy
          · exact .inl hmem
          · exact g.all y hy
        · intro d hd
          rw [List.find?_cons_of_neg]
          · exact g.first d hd
          · intro hc
            exact g.new d hd (of_decide_eq_true hc ▸ hmem)
        · refine g.order.imp_of_mem ?_
          intro a b ha hb hab
          rw [hidx a ha (hne a ha), hidx b hb (hne b hb)]
          omega
        · rw [hl]; simp
      · have hmem : upper x.name ∉ s.names := by simpa using hmem
        cases hdef : definition F m (f x) with
        | error e => rw [hdef] at h1; cases h1
        | ok t =>
          rw [hdef] at h1
          cases h1
          simp only at g hn hc hl
          have hne : ∀ d ∈ ds, upper x.name ≠ upper d.name := fun d hd he => g.new d hd (by simp [he])
          refine ⟨x :: ds, t :: ts, ⟨g.sub.cons_cons _, ?_, ?_, ?_, ?_, ?_⟩, .cons ((defines_iff F m (f x) t).1 hdef) hd, ?_, ?_, ?_⟩
          · rw [List.map_cons, List.nodup_cons]
            refine ⟨?_, g.once⟩
            intro hx
            obtain ⟨d, hd, he⟩ := List.mem_map.1 hx
            exact g.new d hd (by simp [he])
          · intro d hd
            rcases List.mem_cons.mp hd with rfl | hd
            · exact hmem
            · intro hc; exact g.new d hd (by simp [hc])
          · intro y hy
            rcases List.mem_cons.mp hy with rfl | hy
            · exact .inr ⟨_, by simp, rfl⟩
            · rcases g.all y hy with h2 | ⟨d, h2, h3⟩
              · rcases List.mem_append.mp h2 with h2 | h2
                · exact .inl h2
                · exact .inr ⟨x, by simp, (List.mem_singleton.1 h2).symm⟩
              · exact .inr ⟨d, by simp [h2], h3⟩
          · intro d hd
            rcases List.mem_cons.mp hd with rfl | hd
            · rw [List.find?_cons_of_pos]; simp
            · rw [List.find?_cons_of_neg]
              · exact g.first d hd
              · intro hc
                exact g.new d hd (by simp [← of_decide_eq_true hc])
          · rw [List.pairwise_cons]
            constructor
            · intro d hd
              rw [hidx d hd (hne d hd), List.findIdx_cons, decide_eq_true rfl]
              exact Nat.succ_pos _
            · refine g.order.imp_of_mem ?_
              intro a b ha hb hab
              rw [hidx a ha (hne a ha), hidx b hb (hne b hb)]
              omega
          · rw [hn]; simp
          · rw [hc]; simp
          · rw [hl]; simp
    · cases hr

/-- The loop, without an exception. -/
theorem writeElems_ok {F : Fmt R} {m : Mapping} (xs : List (Elem R)) (s s' : WriteState) (hr : writeElems F m xs s = (s', none)) :
    ∃ ds ts, Firsts xs s.names ds ∧ List.Forall₂ (Defines F m) ds ts ∧ s'.names = s.names ++ ds.map (fun x => upper x.name) ∧
      s'.contents = s.contents ++ ts.flatten ∧ s'.line = s.line ++ xs.flatMap (fun x => upper x.name ++ " + ".toList) :=
  writeElems_map id xs (fun _ _ => rfl) s s' (by rw [List.map_id]; exact hr)

/-- The names separated by plus signs. -/
def joinPlus : List Str → Str
  | [] => []
  | [n] => n
  | n :: ns => n ++ " + ".toList ++ joinPlus ns

theorem flatMap_plus (xs : List (Elem R)) (hx : xs ≠ []) :
    xs.flatMap (fun x => upper x.name ++ " + ".toList) = joinPlus (xs.map fun x => upper x.name) ++ " + ".toList := by
  induction xs with
  | nil => exact absurd rfl hx
  | cons x xs ih =>
    cases xs with
    | nil => simp [joinPlus]
    | cons y ys =>
      rw [List.flatMap_cons, ih (by simp)]
      change _ = upper x.name ++ " + ".toList ++ joinPlus _ ++ _
      simp only [List.append_assoc]

/-- The file for elements that come from `xs` by a function that keeps the names. -/
theorem writeFile_map {F : Fmt R} {m : Mapping} {name : Str} (f : Elem R → Elem R) {xs : List (Elem R)} (hf : ∀ x ∈ xs, (f x).name = x.name)
    (hx : xs ≠ []) {known known' : List Str} {text : Str} (hr : writeFile F m name (xs.map f) known = (known', .ok text)) :
    ∃ ds ts, Firsts xs known ds ∧ List.Forall₂ (fun x t => Defines F m (f x) t) ds ts ∧ known' = known ++ ds.map (fun x => upper x.name) ∧
      text = "import warp as wp\n".toList ++ ts.flatten ++ (name ++ " = ".toList ++ joinPlus (xs.map fun x => upper x.name) ++ " ".toList) := by
  unfold writeFile at hr
  split at hr
  · rename_i s h1
    cases hr
    obtain ⟨ds, ts, f, hd, hn, hc, hl⟩ := writeElems_map f xs hf _ _ h1
    refine ⟨ds, ts, f, hd, hn, ?_⟩
    rw [hc, hl, flatMap_plus xs hx]
    have : ∀ (a b : Str), (a ++ (b ++ " + ".toList)).take ((a ++ (b ++ " + ".toList)).length - 2) = a ++ b ++ " ".toList := by
      intro a b
      have h2 : a ++ (b ++ " + ".toList) = (a ++ b ++ " ".toList) ++ "+ ".toList := by
        rw [show " + ".toList = " ".toList ++ "+ ".toList from rfl]; simp only [List.append_assoc]
      rw [h2, List.length_append]
      rw [show "+ ".toList.length = 2 from rfl, Nat.add_sub_cancel, List.take_left]
    rw [this]
  · cases hr

/-- C39 for a beamline that is not empty and a writer with the state `known`: the text is the import line, the
definitions of the names that the writer has not written before, each once, and the line. -/
theorem warp_exact {F : Fmt R} {m : Mapping} {name : Str} {xs : List (Elem R)} (hx : xs ≠ []) {known known' : List Str} {text : Str}
    (hr : writeFile F m name xs known = (known', .ok text)) :
    ∃ ds ts, Firsts xs known ds ∧ List.Forall₂ (Defines F m) ds ts ∧ known' = known ++ ds.map (fun x => upper x.name) ∧
      text = "import warp as wp\n".toList ++ ts.flatten ++ (name ++ " = ".toList ++ joinPlus (xs.map fun x => upper x.name) ++ " ".toList) :=
  writeFile_map id (fun _ _ => rfl) hx (by rw [List.map_id]; exact hr)

/-- C39 for the first call on a writer and a beamline that is not empty: the text is the import line,
one definition for each distinct name in upper case, and the line with all elements in order. -/
theorem warp_partial {F : Fmt R} {m : Mapping} {name : Str} {xs : List (Elem R)} (hx : xs ≠ []) {known' : List Str} {text : Str}
    (hr : writeFile F m name xs [] = (known', .ok text)) :
    ∃ ds ts, List.Sublist ds xs ∧ (ds.map fun x => upper x.name).Nodup ∧ (∀ x ∈ xs, ∃ d ∈ ds, upper d.name = upper x.name) ∧
      (∀ d ∈ ds, xs.find? (fun x => upper x.name = upper d.name) = some d) ∧ List.Forall₂ (Defines F m) ds ts ∧
      text = "import warp as wp\n".toList ++ ts.flatten ++ (name ++ " = ".toList ++ joinPlus (xs.map fun x => upper x.name) ++ " ".toList) := by
  obtain ⟨ds, ts, f, hd, _, ht⟩ := warp_exact hx hr
  refine ⟨ds, ts, f.sub, f.once, ?_, f.first, hd, ht⟩
  intro x h
  rcases f.all x h with h1 | h1
  · cases h1
  · exact h1

/-- C39 fails for the second and all later calls on a writer: there are no definitions. -/
theorem warp_again_fails {F : Fmt R} {m : Mapping} {name : Str} {xs : List (Elem R)} (hx : xs ≠ []) {known known' known'' : List Str}
    {text text' : Str} (h1 : writeFile F m name xs known = (known', .ok text)) (h2 : writeFile F m name xs known' = (known'', .ok text')) :
    known'' = known' ∧
    text' = "import warp as wp\n".toList ++ (name ++ " = ".toList ++ joinPlus (xs.map fun x => upper x.name) ++ " ".toList) := by
  obtain ⟨ds, ts, f, hd, hk, _⟩ := warp_exact hx h1
  obtain ⟨ds', ts', f', hd', hk', ht'⟩ := warp_exact hx h2
  have : ds' = [] := by
    by_contra hne
    obtain ⟨d, hd⟩ := List.exists_mem_of_ne_nil _ hne
    refine f'.new d hd ?_
    rw [hk]
    rcases f.all d (f'.sub.subset hd) with h | ⟨e, he, h⟩
    · simp [h]
    · rw [← h]
      exact List.mem_append_right _ (List.mem_map_of_mem he)
  subst this
  cases hd'
  refine ⟨by rw [hk']; simp, ?_⟩
  rw [ht']
  simp

/-- The second call succeeds whenever the first did. -/
theorem warp_again_ok {F : Fmt R} {m : Mapping} {xs : List (Elem R)} {s : WriteState} (h : ∀ x ∈ xs, upper x.name ∈ s.names) :
    (writeElems F m xs s).2 = none := by
  induction xs generalizing s with
  | nil => rfl
  | cons x xs ih =>
    unfold writeElems writeElem
    simp only
    rw [if_pos (by simpa using h x (by simp))]
    exact ih fun y hy => h y (by simp [hy])

/-- For an empty beamline the line has no equals sign. -/
theorem warp_empty_fails (F : Fmt R) (m : Mapping) (name : Str) (known : List Str) :
    writeFile F m name ([] : List (Elem R)) known = (known, .ok ("import warp as wp\n".toList ++ (name ++ " ".toList))) := by
  unfold writeFile writeElems
  simp only
  have : ∀ a : Str, (a ++ " = ".toList).take ((a ++ " = ".toList).length - 2) = a ++ " ".toList := by
    intro a
    have h2 : a ++ " = ".toList = (a ++ " ".toList) ++ "= ".toList := by
      rw [show " = ".toList = " ".toList ++ "= ".toList from rfl]; simp only [List.append_assoc]
    rw [h2, List.length_append, show "= ".toList.length = 2 from rfl, Nat.add_sub_cancel, List.take_left]
  rw [this]

/-- A parameter that the definition of `x` needs is missing. -/
def Lacks (m : Mapping) (x : Elem R) : Prop :=
  ∃ t ps p, dget m (upper x.type) = some (t, ps) ∧ p ∈ ps ∧ Params.getItem x.params p = none

theorem parametersText_error {F : Fmt R} {x : Elem R} {ps : List Str} {e : PyErr} :
    parametersText F x ps = .error e ↔ e = .keyError ∧ ∃ p ∈ ps, Params.getItem x.params p = none := by
  induction ps with
  | nil =>
    constructor
    · intro h; cases h
    · rintro ⟨_, p, hp, _⟩; cases hp
  | cons p ps ih =>
    unfold parametersText
    cases hv : Params.getItem x.params p with
    | none =>
      constructor
      · intro h; cases h; exact ⟨rfl, p, by simp, hv⟩
      · rintro ⟨rfl, _⟩; rfl
    | some v =>
      simp only
      cases ht : parametersText F x ps with
      | ok t =>
        constructor
        · intro h; cases h
        · rintro ⟨rfl, q, hq, hn⟩
          rcases List.mem_cons.mp hq with rfl | hq
          · rw [hv] at hn; cases hn
          · rw [ih.2 ⟨rfl, q, hq, hn⟩] at ht
            cases ht
      | error e' =>
        rw [ht] at ih
        constructor
        · intro h
          cases h
          obtain ⟨h1, q, hq, hn⟩ := ih.1 rfl
          exact ⟨h1, q, by simp [hq], hn⟩
        · rintro ⟨rfl, q, hq, hn⟩
          rcases List.mem_cons.mp hq with rfl | hq
          · rw [hv] at hn; cases hn
          · have := ih.2 ⟨rfl, q, hq, hn⟩
            cases this; rfl

theorem definition_error {F : Fmt R} {m : Mapping} {x : Elem R} {e : PyErr} :
    definition F m x = .error e ↔ e = .keyError ∧ Lacks m x := by
  unfold definition
  cases hm : dget m (upper x.type) with
  | none =>
    constructor
    · intro h; cases h
    · rintro ⟨_, t, ps, p, h1, _⟩; rw [hm] at h1; cases h1
  | some tp =>
    obtain ⟨t, ps⟩ := tp
    simp only
    have key : ∀ {e}, _ := fun {e} => parametersText_error (F := F) (x := x) (ps := ps) (e := e)
    cases hp : parametersText F x ps with
    | ok u =>
      constructor
      · intro h; cases h
      · rintro ⟨rfl, t', ps', p, h1, h2, h3⟩
        rw [hm] at h1; cases h1
        rw [key.2 ⟨rfl, p, h2, h3⟩] at hp; cases hp
    | error e' =>
      constructor
      · intro h
        cases h
        obtain ⟨h1, p, h2, h3⟩ := key.1 hp
        exact ⟨h1, t, ps, p, hm, h2, h3⟩
      · rintro ⟨rfl, t', ps', p, h1, h2, h3⟩
        rw [hm] at h1; cases h1
        rw [key.2 ⟨rfl, p, h2, h3⟩] at hp; cases hp; rfl

theorem writeElems_error {F : Fmt R} {m : Mapping} {xs : List (Elem R)} {s : WriteState} {e : PyErr} :
    (writeElems F m xs s).2 = some e ↔ e = .keyError ∧
      ∃ x, Lacks m x ∧ xs.find? (fun y => upper y.name = upper x.name) = some x ∧ upper x.name ∉ s.names := by
  induction xs generalizing s with
  | nil =>
    constructor
    · intro h; cases h
    · rintro ⟨_, x, _, h, _⟩; cases h
  | cons x xs ih =>
    unfold writeElems writeElem
    simp only
    by_cases hmem : upper x.name ∈ s.names
    · rw [if_pos (by simpa using hmem)]
      simp only
      rw [ih]
      refine and_congr_right fun _ => exists_congr fun y => and_congr_right fun _ => ?_
      constructor
      · rintro ⟨h1, h2⟩
        refine ⟨?_, h2⟩
        rw [List.find?_cons_of_neg]
        · exact h1
        · intro hc; exact h2 (of_decide_eq_true hc ▸ hmem)
      · rintro ⟨h1, h2⟩
        rw [List.find?_cons_of_neg] at h1
        · exact ⟨h1, h2⟩
        · intro hc; exact h2 (of_decide_eq_true hc ▸ hmem)
    · rw [if_neg (by simpa using hmem)]
      cases hd : definition F m x with
      | error e' =>
        simp only
        have := definition_error.1 hd
        constructor
        · intro h
          cases h
          refine ⟨this.1, x, this.2, ?_, hmem⟩
          rw [List.find?_cons_of_pos]; simp
        · rintro ⟨rfl, _⟩
          rw [this.1]
      | ok t =>
        simp only
        rw [ih]
        refine and_congr_right fun _ => exists_congr fun y => and_congr_right fun hy => ?_
        constructor
        · rintro ⟨h1, h2⟩
          simp only [List.mem_append, List.mem_singleton, not_or] at h2
          refine ⟨?_, h2.1⟩
          rw [List.find?_cons_of_neg]
          · exact h1
          · intro hc; exact h2.2 (of_decide_eq_true hc).symm
        · rintro ⟨h1, h2⟩
          by_cases hn : upper x.name = upper y.name
          · rw [List.find?_cons_of_pos (by simpa using hn)] at h1
            cases h1
            rw [definition_error.2 ⟨rfl, hy⟩] at hd
            cases hd
          · rw [List.find?_cons_of_neg (by simpa using hn)] at h1
            refine ⟨h1, ?_⟩
            simp only [List.mem_append, List.mem_singleton, not_or]
            exact ⟨h2, fun h => hn h.symm⟩

/-- Writing fails, with KeyError, exactly if an element that is to be defined lacks a parameter of its type. -/
theorem warp_error {F : Fmt R} {m : Mapping} {name : Str} {xs : List (Elem R)} {known : List Str} {e : PyErr} :
    (writeFile F m name xs known).2 = .error e ↔ e = .keyError ∧
      ∃ x, Lacks m x ∧ xs.find? (fun y => upper y.name = upper x.name) = some x ∧ upper x.name ∉ known := by
  rw [← writeElems_error (F := F) (s := ⟨known, "import warp as wp\n".toList, name ++ " = ".toList⟩)]
  unfold writeFile
  split
  · rename_i s h; rw [h]; simp
  · rename_i s e' h; rw [h]; simp

/-! ## Examples -/

def exFmt : Fmt Nat := ⟨natStr, fun x => x ≠ 0⟩

def exMap : Mapping := [("QUAD".toList, "Quad".toList, ["l".toList, "db".toList]), ("DRIF".toList, "Drft".toList, ["l".toList])]

def exBeam : List (Elem Nat) :=
  [⟨"q1".toList, "quad".toList, [("l".toList, .num 2), ("db".toList, .num 3)], 0⟩, ⟨"d".toList, "drif".toList, [("l".toList, .num 5)], 0⟩,
   ⟨"q1".toList, "quad".toList, [("l".toList, .num 2), ("db".toList, .num 3)], 0⟩, ⟨"w".toList, "watch".toList, [], 0⟩]

example : writeFile exFmt exMap "line".toList exBeam [] = (["Q1".toList, "D".toList, "W".toList], .ok
    ("import warp as wp\nQ1 = wp.Quad( l=2, db=3,)\nD = wp.Drft( l=5,)\nW = wp.Drft( l=0.0,)\nline = Q1 + D + Q1 + W ".toList)) := by
  decide +kernel

example : writeFile exFmt exMap "line".toList exBeam ["Q1".toList, "D".toList, "W".toList] = (["Q1".toList, "D".toList, "W".toList], .ok
    ("import warp as wp\nline = Q1 + D + Q1 + W ".toList)) := by
  decide +kernel

example : (writeFile exFmt exMap "line".toList [⟨"q1".toList, "quad".toList, [("l".toList, .num 2)], 0⟩] []).2 = .error .keyError := by
  decide +kernel

end Verif.Warp
