import Verif.Trace.PropsBends

/-!
# Property C130: which exception ends `handle_bends`
-/

namespace Verif.Trace

open Verif.Lattice

variable {R : Type}

theorem valueAt_exact {h : Heap R} {es : List Nat} (hs : (h.line 0).seq = es.map Item.elem) {i : Int} {k : Nat}
    (hk : pyIndex (es.map Item.elem) i = (es[k]?).map Item.elem) (key : Str) :
    valueAt h i key = match es[k]? with
      | none => .error .indexError
      | some e => match Params.getItem (h.elem e).params key with
        | none => .error .keyError
        | some v => .ok v := by
  unfold valueAt
  rw [hs, hk]
  cases es[k]? <;> rfl

/-- The exception for the bend at position `i` whose neighbours do not have all values; the element in front is asked for its angle first. -/
def stepErr (h : Heap R) (es : List Nat) (i : Nat) : PyErr :=
  match (es[before es.length i]?).bind fun a => Params.getItem (h.elem a).params "beta".toList with
  | none => .keyError
  | some _ => match es[i + 1]? with
    | none => .indexError
    | some c => match Params.getItem (h.elem c).params "beta".toList with
      | none => .keyError
      | some _ => match (es[before es.length i]?).bind fun a => Params.getItem (h.elem a).params "g".toList with
        | some (.str _) => .typeError
        | _ => .keyError

theorem bendStep_error (half : R → R) {h : Heap R} {es : List Nat} (hs : (h.line 0).seq = es.map Item.elem) {i : Nat} (hi : i < es.length)
    (hne : ¬ Enclosed h es i) : bendStep half h i = .error (stepErr h es i) := by
  have hb : es[i]? = some es[i] := List.getElem?_eq_getElem hi
  have hbl : before es.length i < es.length := by unfold before; split <;> omega
  have hp := pyIndex_before hi
  have hq := pyIndex_next es i
  have ha : es[before es.length i]? = some es[before es.length i] := List.getElem?_eq_getElem hbl
  have l1 := fun d : Params R => getItem_lower d (lower_keys.1.trans lower_keys.2.2.2.1.symm)
  have l2 := fun d : Params R => getItem_lower d (lower_keys.2.1.trans lower_keys.2.2.2.2.1.symm)
  have l3 := fun d : Params R => getItem_lower d (lower_keys.2.2.1.trans lower_keys.2.2.2.2.2.symm)
  cases hst : bendStep half h i with
  | ok r =>
    obtain ⟨a, c, f, h1, h2, h3, -⟩ := (bendStep_iff half hs hb r).1 hst
    exact absurd ⟨a, c, f, h1, h2, h3⟩ hne
  | error e =>
    have hst' := hst
    unfold bendStep at hst
    rw [valueAt_exact hs hp, valueAt_exact hs hq, valueAt_exact hs hp, valueAt_exact hs hp, ha] at hst
    simp only [l1, l2, l3] at hst
    unfold stepErr
    rw [ha]
    simp only [Option.bind_some]
    cases h1 : Params.getItem (h.elem es[before es.length i]).params "beta".toList with
    | none => rw [h1] at hst; exact hst.symm
    | some e1 =>
      rw [h1] at hst
      cases hc : es[i + 1]? with
      | none => rw [hc] at hst; exact hst.symm
      | some c =>
        rw [hc] at hst
        simp only at hst ⊢
        cases h2 : Params.getItem (h.elem c).params "beta".toList with
        | none => rw [h2] at hst; exact hst.symm
        | some e2 =>
          rw [h2] at hst
          simp only at hst ⊢
          cases h3 : Params.getItem (h.elem es[before es.length i]).params "g".toList with
          | none => rw [h3] at hst; exact hst.symm
          | some g =>
            rw [h3] at hst
            cases g with
            | str s => exact hst.symm
            | num x =>
              simp only at hst ⊢
              cases h4 : Params.getItem (h.elem es[before es.length i]).params "k1".toList with
              | none => rw [h4] at hst; exact hst.symm
              | some k1 => exact absurd ⟨_, c, ⟨e1, e2, x, k1⟩, ha, hc, ⟨h1, h2, h3, h4⟩⟩ hne

theorem SameButFaces.enclosed {h h' : Heap R} (hh : SameButFaces h h') (es : List Nat) (i : Nat) : Enclosed h' es i ↔ Enclosed h es i := by
  unfold Enclosed
  constructor
  · rintro ⟨a, c, f, h1, h2, h3⟩; exact ⟨a, c, f, h1, h2, (hh.faces a c f).1 h3⟩
  · rintro ⟨a, c, f, h1, h2, h3⟩; exact ⟨a, c, f, h1, h2, (hh.faces a c f).2 h3⟩

theorem SameButFaces.stepErr {h h' : Heap R} (hh : SameButFaces h h') (es : List Nat) (i : Nat) : Trace.stepErr h' es i = Trace.stepErr h es i := by
  unfold Trace.stepErr
  have e1 : ∀ k, Params.getItem (h'.elem k).params "beta".toList = Params.getItem (h.elem k).params "beta".toList := fun k =>
    hh.params k _ (by decide +kernel)
  have e2 : ∀ k, Params.getItem (h'.elem k).params "g".toList = Params.getItem (h.elem k).params "g".toList := fun k =>
    hh.params k _ (by decide +kernel)
  simp only [e1, e2]

theorem bendLoop_error (half : R → R) (h0 : Heap R) (es : List Nat) (hs : (h0.line 0).seq = es.map Item.elem) (i : Nat) (hi : i < es.length)
    (hb : Bend h0 (es.getD i 0)) (hne : ¬ Enclosed h0 es i) (post : List Nat) :
    ∀ (pre : List Nat), (∀ j ∈ pre, j < es.length ∧ (Bend h0 (es.getD j 0) → Enclosed h0 es j)) → ∀ (h : Heap R) (acc : List Item), SameButFaces h0 h →
      bendLoop half (pre ++ i :: post) h acc = .error (stepErr h0 es i) := by
  have at_ : ∀ (h : Heap R), SameButFaces h0 h → ∀ j (hj : j < es.length), (h.line 0).seq[j]? = some (.elem es[j]) := fun h hh j hj => by
    rw [hh.line, hs, List.getElem?_map, List.getElem?_eq_getElem hj]; rfl
  have gd : ∀ j (hj : j < es.length), es.getD j 0 = es[j] := fun j hj => by
    rw [List.getD_eq_getElem?_getD, List.getElem?_eq_getElem hj]; rfl
  intro pre
  induction pre with
  | nil =>
    intro _ h acc hh
    have hs' : (h.line 0).seq = es.map Item.elem := by rw [hh.line, hs]
    rw [List.nil_append, bendLoop, at_ h hh i hi]
    simp only
    rw [gd i hi] at hb
    rw [if_pos (show (h.elem es[i]).type = _ from (hh.bend _).2 hb), bendStep_error half hs' hi (fun h => hne ((hh.enclosed es i).1 h)), hh.stepErr]
  | cons j pre ih =>
    intro hp h acc hh
    have hs' : (h.line 0).seq = es.map Item.elem := by rw [hh.line, hs]
    obtain ⟨hj, henc⟩ := hp j (by simp)
    have ih := ih fun k hk => hp k (List.mem_cons_of_mem _ hk)
    rw [List.cons_append, bendLoop, at_ h hh j hj]
    simp only
    by_cases hbend : Bend h0 es[j]
    · rw [gd j hj] at henc
      obtain ⟨a, c, f, ha, hc, hf⟩ := henc hbend
      have hstep := (bendStep_iff half hs' (List.getElem?_eq_getElem hj) (withFaces half h es[j] f, [.elem a, .elem c])).2
        ⟨a, c, f, ha, hc, (hh.faces a c f).2 hf, rfl⟩
      rw [if_pos (show (h.elem es[j]).type = _ from (hh.bend _).2 hbend), hstep]
      exact ih _ _ (hh.trans (withFaces_same half h es[j] f))
    · rw [if_neg (show ¬ (h.elem es[j]).type = _ from fun hc => hbend ((hh.bend _).1 hc))]
      exact ih _ _ hh

/-- **C130, the exception exactly.** At the first bend whose neighbours do not have all the values: a missing angle, gap or integral is a `KeyError`, a
bend at the end of the line behind an element with an angle is an `IndexError`, a gap that is text is a `TypeError`. -/
theorem bends_error_exact (half : R → R) (h : Heap R) (es : List Nat) (hs : (h.line 0).seq = es.map Item.elem) (i b a : Nat) (hb : es[i]? = some b)
    (hbend : Bend h b) (ha : es[before es.length i]? = some a) (hfirst : ∀ j < i, Bend h (es.getD j 0) → Enclosed h es j) :
    (Params.getItem (h.elem a).params "beta".toList = none → handleBends half h = .error .keyError) ∧
    (∀ v, Params.getItem (h.elem a).params "beta".toList = some v →
      (i + 1 = es.length → handleBends half h = .error .indexError) ∧
      ∀ c, es[i + 1]? = some c →
        (Params.getItem (h.elem c).params "beta".toList = none → handleBends half h = .error .keyError) ∧
        ∀ w, Params.getItem (h.elem c).params "beta".toList = some w →
          (Params.getItem (h.elem a).params "g".toList = none → handleBends half h = .error .keyError) ∧
          (∀ s, Params.getItem (h.elem a).params "g".toList = some (.str s) → handleBends half h = .error .typeError) ∧
          ∀ x, Params.getItem (h.elem a).params "g".toList = some (.num x) →
            Params.getItem (h.elem a).params "k1".toList = none → handleBends half h = .error .keyError) := by
  have hi : i < es.length := by
    by_contra hc
    rw [List.getElem?_eq_none (by omega)] at hb
    cases hb
  have hlen : (h.line 0).seq.length = es.length := by rw [hs, List.length_map]
  have hgd : es.getD i 0 = b := by rw [List.getD_eq_getElem?_getD, hb]; rfl
  have key : ∀ err, ¬ Enclosed h es i → stepErr h es i = err → handleBends half h = .error err := by
    intro err hne herr
    have hr : List.range es.length = List.range i ++ i :: (List.range (es.length - i - 1)).map (fun k => i + 1 + k) := by
      have : es.length = i + 1 + (es.length - i - 1) := by omega
      conv_lhs => rw [this, List.range_add, List.range_succ, List.append_assoc]
      rfl
    have := bendLoop_error half h es hs i hi (by rw [hgd]; exact hbend) hne ((List.range (es.length - i - 1)).map (fun k => i + 1 + k)) (List.range i)
      (fun j hj => ⟨by have := List.mem_range.1 hj; omega, hfirst j (List.mem_range.1 hj)⟩) h [] (SameButFaces.refl h)
    unfold handleBends
    rw [hlen, hr, this, herr]
  have enc : Enclosed h es i → ∃ c f, es[i + 1]? = some c ∧ HasFaces h a c f := by
    rintro ⟨a', c, f, h1, h2, h3⟩
    rw [ha] at h1
    cases h1
    exact ⟨c, f, h2, h3⟩
  refine ⟨fun h1 => key _ ?_ ?_, fun v h1 => ⟨fun hl => key _ ?_ ?_, fun c hc => ⟨fun h2 => key _ ?_ ?_, fun w h2 =>
    ⟨fun h3 => key _ ?_ ?_, fun s h3 => key _ ?_ ?_, fun x h3 h4 => key _ ?_ ?_⟩⟩⟩⟩
  · intro he
    obtain ⟨c, f, -, hf⟩ := enc he
    rw [hf.e1] at h1
    cases h1
  · simp only [stepErr, ha, Option.bind_some, h1]
  · intro he
    obtain ⟨c, f, hc, -⟩ := enc he
    rw [List.getElem?_eq_none (by omega)] at hc
    cases hc
  · simp only [stepErr, ha, Option.bind_some, h1]
    rw [List.getElem?_eq_none (by omega)]
  · intro he
    obtain ⟨c', f, hc', hf⟩ := enc he
    rw [hc] at hc'
    cases hc'
    rw [hf.e2] at h2
    cases h2
  · simp only [stepErr, ha, Option.bind_some, h1, hc, h2]
  · intro he
    obtain ⟨c', f, -, hf⟩ := enc he
    rw [hf.gap] at h3
    cases h3
  · simp only [stepErr, ha, Option.bind_some, h1, hc, h2, h3]
  · intro he
    obtain ⟨c', f, -, hf⟩ := enc he
    rw [hf.gap] at h3
    cases h3
  · simp only [stepErr, ha, Option.bind_some, h1, hc, h2, h3]
  · intro he
    obtain ⟨c', f, -, hf⟩ := enc he
    rw [hf.fint] at h4
    cases h4
  · simp only [stepErr, ha, Option.bind_some, h1, hc, h2, h3]

/-- **C130, shared edges exactly.** If every bend has its neighbours but two of them share one, the second removal is a `ValueError`. -/
theorem bends_shared_exact (half : R → R) (h : Heap R) (es : List Nat) (hs : (h.line 0).seq = es.map Item.elem) (hn : es.Nodup)
    (henc : ∀ i < es.length, Bend h (es.getD i 0) → Enclosed h es i) (i a b : Nat)
    (ha : es[i]? = some a) (hb : es[i + 2]? = some b) (hba : Bend h a) (hbb : Bend h b) : handleBends half h = .error .valueError := by
  have hlen : (h.line 0).seq.length = es.length := by rw [hs, List.length_map]
  rcases bendLoop_iff half h es hs (List.range es.length) (fun i hi => List.mem_range.1 hi) h [] (SameButFaces.refl h) with
    ⟨h1, h', h2, h3, -⟩ | ⟨⟨j, hj, hbj, he⟩, -⟩
  · have hs' : (h'.line 0).seq = es.map Item.elem := by rw [h2.line, hs]
    rw [List.nil_append] at h3
    obtain ⟨e, he⟩ := bends_shared_fails half h es hs hn i a b ha hb hba hbb
    unfold handleBends at he ⊢
    rw [hlen, h3] at he ⊢
    simp only at he ⊢
    rw [hs'] at he ⊢
    rcases removeLoop_iff ((neighbours h es (List.range es.length)).map Item.elem) (es.map Item.elem) with ⟨-, g2⟩ | ⟨-, g2⟩
    · rw [g2] at he; cases he
    · rw [g2]
  · exact absurd (henc j (List.mem_range.1 hj) hbj) he

/-- A bend at the end of the line, and a bend behind a drift. -/
def exEnd (edge : Bool) : Heap Int := runOps (some "b".toList)
  [if edge then .addElement 0 "e1".toList "edge".toList [("BETA".toList, .num 1), ("G".toList, .num 8), ("K1".toList, .num 3)] false
     else .addElement 0 "d1".toList "drift".toList [("L".toList, .num 20)] false,
   .addElement 0 "b1".toList "sbend".toList [("ANGLE".toList, .num 30)] false]

example : handleBends (· / 2) (exEnd true) = .error .indexError :=
  ((bends_error_exact (· / 2) (exEnd true) [0, 1] (by decide +kernel) 1 1 0 (by decide +kernel) (by decide +kernel) (by decide +kernel)
    (by intro j hj hb; obtain rfl : j = 0 := by omega
        exact absurd hb (by decide +kernel))).2 (.num 1) (by decide +kernel)).1 rfl

example : handleBends (· / 2) (exEnd false) = .error .keyError :=
  (bends_error_exact (· / 2) (exEnd false) [0, 1] (by decide +kernel) 1 1 0 (by decide +kernel) (by decide +kernel) (by decide +kernel)
    (by intro j hj hb; obtain rfl : j = 0 := by omega
        exact absurd hb (by decide +kernel))).1 (by decide +kernel)

example : handleBends (· / 2) exShared = .error .valueError := by
  refine bends_shared_exact (· / 2) exShared [0, 1, 2, 3, 4] (by decide +kernel) (by decide) ?_ 1 1 3 (by decide +kernel) (by decide +kernel)
    (by decide +kernel) (by decide +kernel)
  intro i hi hb
  have h1 : i = 1 ∨ i = 3 := by
    by_contra hc
    have hi' : i < 5 := hi
    have : i = 0 ∨ i = 2 ∨ i = 4 := by omega
    rcases this with rfl | rfl | rfl <;> exact absurd hb (by decide +kernel)
  rcases h1 with rfl | rfl
  · exact ⟨0, 2, ⟨.num 1, .num 2, 8, .num 3⟩, by decide +kernel, by decide +kernel, by decide +kernel, by decide +kernel, by decide +kernel, by decide +kernel⟩
  · exact ⟨2, 4, ⟨.num 2, .num 4, 8, .num 3⟩, by decide +kernel, by decide +kernel, by decide +kernel, by decide +kernel, by decide +kernel, by decide +kernel⟩

end Verif.Trace
