import Verif.Trace.PropsCavities

/-!
C37, lengths, exactly: what merging drifts into cavities does to the total length
(trace3d_parser.py:217-233).
-/

namespace Verif.Trace

open Verif.Lattice

variable {R : Type}

/-- Sum of the lengths of the cavities that do not directly follow a cavity; `prev` says whether there is a cavity
in front of the list. -/
def ownLengths [Zero R] [Add R] (cav : Nat → Bool) (own : Nat → R) : Bool → List Nat → R
  | _, [] => 0
  | prev, e :: es => (if cav e = true ∧ prev = false then own e else 0) + ownLengths cav own (cav e) es

theorem ownLengths_congr [AddMonoid R] {cav : Nat → Bool} {f g : Nat → R} : ∀ {es : List Nat} (prev : Bool),
    (∀ e ∈ es, cav e = true → f e = g e) → ownLengths cav f prev es = ownLengths cav g prev es
  | [], _, _ => rfl
  | e :: es, prev, h => by
    unfold ownLengths
    rw [ownLengths_congr (cav e) fun x hx => h x (List.mem_cons_of_mem _ hx)]
    congr 1
    by_cases hc : cav e = true
    · rw [h e (by simp) hc]
    · rw [if_neg (fun hh => hc hh.1), if_neg (fun hh => hc hh.1)]

/-- One merge, with the lengths before and after. -/
theorem merge_exact [AddCommGroup R] {h h' : Heap R} {es : List Nat} (hs : (h.line 0).seq = es.map Item.elem)
    (hn : es.Nodup) (h2 : es.length ≠ 2) {i c : Nat} (hc : es[i]? = some c) {f : Nat → R}
    (hf : ∀ e ∈ es, HasLength (h.elem e) (f e)) (hm : mergeDrifts h i = .ok h') :
    ∃ g : Nat → R, (∀ e ∈ es, HasLength (h'.elem e) (g e)) ∧ (es.map g).sum = (es.map f).sum - f c ∧
      (∀ e, es[i + 1]? = some e → g e = 0) ∧
      ∀ j e, es[j]? = some e → i + 1 < j → j + 1 < es.length → g e = f e := by
  obtain ⟨m, n, ea, eb, a, b, h3, h4, h5, h6, h7, h8, rfl⟩ := mergeDrifts_ok hs hc hm
  have hi : i < es.length := (List.getElem?_eq_some_iff.1 hc).1
  have hnl : n < es.length := (List.getElem?_eq_some_iff.1 h4).1
  have hac : ea ≠ c := by
    rintro rfl
    have := nodup_pos hn h3 hc
    omega
  have hbc : eb ≠ c := by
    rintro rfl
    have := nodup_pos hn h4 hc
    omega
  have hab : ea ≠ eb := by
    rintro rfl
    have := nodup_pos hn h3 h4
    omega
  have ma := List.mem_of_getElem? h3
  have mb := List.mem_of_getElem? h4
  have mc := List.mem_of_getElem? hc
  have fa : f ea = a := (hf ea ma).unique (hasLength_iff.2 (.inl h7))
  have fb : f eb = b := (hf eb mb).unique (hasLength_iff.2 (.inl h8))
  refine ⟨_, setLen_lens (setLen_lens (setLen_lens hf ea 0) eb 0) c (a + b), ?_, ?_, ?_⟩
  · rw [sum_update hn _ mc, sum_update hn _ mb, sum_update hn _ ma]
    rw [Function.update_of_ne (Ne.symm hbc), Function.update_of_ne (Ne.symm hac), Function.update_of_ne (Ne.symm hab), fa, fb]
    abel
  · intro e he
    rw [← h6, h4] at he
    injection he with he
    subst he
    rw [Function.update_of_ne hbc, Function.update_self]
  · intro j e he hj hjl
    have e1 : e ≠ c := by
      rintro rfl
      have := nodup_pos hn he hc
      omega
    have e2 : e ≠ eb := by
      rintro rfl
      have := nodup_pos hn he h4
      omega
    have e3 : e ≠ ea := by
      rintro rfl
      have := nodup_pos hn he h3
      omega
    rw [Function.update_of_ne e1, Function.update_of_ne e2, Function.update_of_ne e3]

/-- The last element is no cavity if the loop ends without an exception. -/
theorem cavityLoop_next [Zero R] [Add R] [Sub R] (ninety : R) (es : List Nat) (is : List Nat) (his : ∀ i ∈ is, i < es.length)
    (h : Heap R) (hs : (h.line 0).seq = es.map Item.elem) (cavs : List Nat) (phases : List R) (r : Heap R × List Nat × List R)
    (hr : cavityLoop ninety is h cavs phases = .ok r) :
    ∀ i ∈ is, ∀ e, es[i]? = some e → (h.elem e).type = cavType → i + 1 < es.length := by
  induction is generalizing h cavs phases with
  | nil => intro i hi; exact absurd hi (by simp)
  | cons k is ih =>
    have hk : k < es.length := his k (by simp)
    have hc : es[k]? = some es[k] := List.getElem?_eq_getElem hk
    have his' : ∀ j ∈ is, j < es.length := fun j hj => his j (List.mem_cons_of_mem _ hj)
    rcases cavityLoop_cons hs hc is cavs phases hr with ⟨ht, p, h1, hp, hm, hr'⟩ | ⟨ht, hr'⟩
    · have hsame := merge_same hs hc hm
      have := ih his' h1 (by rw [hsame.line]; exact hs) _ _ hr'
      intro i hi e he het
      rcases List.mem_cons.1 hi with hi | hi
      · subst hi
        obtain ⟨_, n, _, eb, _, _, _, h4, _, h6, _⟩ := mergeDrifts_ok hs hc hm
        have := (List.getElem?_eq_some_iff.1 h4).1
        omega
      · exact this i hi e he (by rw [hsame.type]; exact het)
    · have := ih his' h hs _ _ hr'
      intro i hi e he het
      rcases List.mem_cons.1 hi with hi | hi
      · subst hi
        rw [hc] at he
        injection he with he
        rw [he] at ht
        exact absurd het ht
      · exact this i hi e he het

theorem cavityLoop_exact [AddCommGroup R] (ninety : R) (es : List Nat) (hn : es.Nodup) (h2 : es.length ≠ 2) (cav : Nat → Bool)
    (suf : List Nat) : ∀ (pre : List Nat) (h : Heap R), es = pre ++ suf → (h.line 0).seq = es.map Item.elem →
    (∀ e, cav e = true ↔ (h.elem e).type = cavType) → ∀ f : Nat → R, (∀ e ∈ es, HasLength (h.elem e) (f e)) →
    ∀ (cavs : List Nat) (phases : List R) (r : Heap R × List Nat × List R),
    cavityLoop ninety (List.range' pre.length suf.length) h cavs phases = .ok r →
    TotalLength r.1 es ((es.map f).sum - ownLengths cav f false suf) := by
  induction suf with
  | nil =>
    intro pre h _ _ _ f hf cavs phases r hr
    injection hr with hr
    subst hr
    rw [ownLengths, sub_zero]
    exact total_of_lens f hf
  | cons c suf ih =>
    intro pre h hes hs hcav f hf cavs phases r hr
    have hc : es[pre.length]? = some c := by rw [hes]; simp
    have hes' : es = (pre ++ [c]) ++ suf := by rw [hes]; simp
    have hl : (pre ++ [c]).length = pre.length + 1 := by simp
    have hnext := cavityLoop_next ninety es _ (by
      intro i hi
      rw [List.mem_range'_1] at hi
      rw [hes, List.length_append]
      omega) h hs cavs phases r hr
    rw [List.length_cons, List.range'_succ] at hr
    rcases cavityLoop_cons hs hc _ cavs phases hr with ⟨ht, p, h1, hp, hm, hr'⟩ | ⟨ht, hr'⟩
    · have hsame := merge_same hs hc hm
      obtain ⟨g, hg, hsum, hg1, hg2⟩ := merge_exact hs hn h2 hc hf hm
      rw [← hl] at hr'
      have := ih (pre ++ [c]) h1 hes' (by rw [hsame.line]; exact hs) (fun e => by rw [hsame.type]; exact hcav e) g hg _ _ r hr'
      rw [hsum] at this
      have hct : cav c = true := (hcav c).2 ht
      have hown : ownLengths cav f false (c :: suf) = f c + ownLengths cav g false suf := by
        rw [ownLengths, if_pos ⟨hct, rfl⟩, hct]
        congr 1
        cases suf with
        | nil => rfl
        | cons d suf =>
          have hd : es[pre.length + 1]? = some d := by
            rw [hes', ← hl]; simp
          rw [ownLengths, ownLengths, if_neg (by simp), hg1 d hd]
          have : (if cav d = true ∧ false = false then (0 : R) else 0) = 0 := by split <;> rfl
          rw [this]
          congr 1
          refine ownLengths_congr _ fun e he hce => ?_
          obtain ⟨j, hj, hje⟩ := List.getElem_of_mem he
          have hpos : es[pre.length + 2 + j]? = some e := by
            have : es = (pre ++ [c, d]) ++ suf := by rw [hes]; simp
            rw [this, List.getElem?_append_right (by simp)]
            rw [show pre.length + 2 + j - (pre ++ [c, d]).length = j by simp]
            rw [List.getElem?_eq_getElem hj, hje]
          refine (hg2 _ e hpos (by omega) ?_).symm
          refine hnext _ ?_ e hpos ((hcav e).1 hce)
          rw [List.mem_range'_1]
          simp only [List.length_cons]
          omega
      rw [hown, show (es.map f).sum - (f c + ownLengths cav g false suf) = (es.map f).sum - f c - ownLengths cav g false suf by abel]
      exact this
    · rw [← hl] at hr'
      have := ih (pre ++ [c]) h hes' hs hcav f hf _ _ r hr'
      have hct : cav c = false := by
        cases hcc : cav c with
        | false => rfl
        | true => exact absurd ((hcav c).1 hcc) ht
      rw [ownLengths, hct, if_neg (by simp), zero_add]
      exact this

/-- The assignment of the phases changes no lengths. -/
theorem handleCavities_lengths [AddCommGroup R] {ninety : R} {h h' : Heap R} {es : List Nat}
    (hs : (h.line 0).seq = es.map Item.elem) (hok : handleCavities ninety h = .ok h') :
    ∃ r, cavityLoop ninety (List.range es.length) h [] [] = .ok r ∧ ∀ v, TotalLength h' es v ↔ TotalLength r.1 es v := by
  unfold handleCavities at hok
  split at hok
  · exact absurd hok (by simp)
  rename_i h1 cavs phases hr
  injection hok with hok
  have hlen : (h.line 0).seq.length = es.length := by rw [hs, List.length_map]
  rw [hlen] at hr
  have his : ∀ i ∈ List.range es.length, i < es.length := fun i hi => List.mem_range.1 hi
  obtain ⟨c1, c2, ps, c3, c4⟩ := cavityLoop_same ninety es _ his h hs [] [] _ hr
  simp only [List.nil_append] at c1 c2 c3 c4
  have hs1 : (h1.line 0).seq = es.map Item.elem := by rw [c1.line]; exact hs
  have hcavs : ∀ i ∈ cavs, i < es.length := by
    intro i hi
    rw [c2] at hi
    exact his i (List.mem_of_mem_filter hi)
  refine ⟨_, hr, ?_⟩
  rw [← hok]
  cases hq : phases.getLast? with
  | none =>
    have hp : phases = [] := by simpa using hq
    have hps : ps = [] := by rw [hp] at c3; exact List.map_eq_nil_iff.1 c3.symm
    rw [hps] at c4
    have : cavs = [] := by rw [c2]; exact List.forall₂_nil_right_iff.1 c4
    rw [this]
    exact fun _ => Iff.rfl
  | some q =>
    obtain ⟨d1, d2, d3⟩ := phaseLoop_spec phases hq es cavs hcavs h1 hs1
    have hL : ∀ e x, HasLength ((phaseLoop phases cavs h1).elem e) x ↔ HasLength (h1.elem e) x := by
      intro e x
      rw [hasLength_iff, hasLength_iff, d3, if_neg (fun h => absurd h.2 (by decide))]
    intro v
    constructor
    · intro hv
      obtain ⟨f, hf⟩ := lens_of_total hv
      rw [hv.unique (total_of_lens f hf)]
      exact total_of_lens f fun e he => (hL e _).1 (hf e he)
    · intro hv
      obtain ⟨f, hf⟩ := lens_of_total hv
      rw [hv.unique (total_of_lens f hf)]
      exact total_of_lens f fun e he => (hL e _).2 (hf e he)

/-- C37, lengths, exactly: the lengths that cavities have of their own are lost, except those of cavities that directly
follow a cavity, which count as the length of a drift. The total length is preserved if and only if these lengths add up to
zero. (Elements used once, and not exactly two elements, for which see `cavity_length_two`.) -/
theorem cavity_length_exact [AddCommGroup R] (ninety : R) (h h' : Heap R) (es : List Nat)
    (hs : (h.line 0).seq = es.map Item.elem) (hn : es.Nodup) (h2 : es.length ≠ 2) (cav : Nat → Bool)
    (hcav : ∀ e, cav e = true ↔ Cavity h e) (own : Nat → R) (hown : ∀ e ∈ es, HasLength (h.elem e) (own e))
    {v : R} (hv : TotalLength h es v) (hok : handleCavities ninety h = .ok h') :
    TotalLength h' es (v - ownLengths cav own false es) ∧ (TotalLength h' es v ↔ ownLengths cav own false es = 0) := by
  obtain ⟨r, hr, hiff⟩ := handleCavities_lengths hs hok
  rw [List.range_eq_range'] at hr
  have := cavityLoop_exact ninety es hn h2 cav es [] h rfl hs hcav own hown [] [] r hr
  rw [← hv.unique (total_of_lens own hown)] at this
  have h1 := (hiff _).2 this
  refine ⟨h1, ?_, ?_⟩
  · intro h3
    have := h3.unique h1
    exact (sub_eq_self.1 this.symm)
  · intro h3
    rw [h3, sub_zero] at h1
    exact h1

/-- C37, lengths, for a cavity and one more element: the element is in front of the cavity and behind it, so its length counts
twice and that of the cavity is lost. -/
theorem cavity_length_two [AddCommGroup R] (ninety : R) (h h' : Heap R) (c d : Nat) (hcd : c ≠ d)
    (hs : (h.line 0).seq = [c, d].map Item.elem) (hcav : Cavity h c) {a b : R} (ha : HasLength (h.elem c) a)
    (hb : HasLength (h.elem d) b) (hok : handleCavities ninety h = .ok h') :
    TotalLength h' [c, d] (b + b) ∧ (TotalLength h' [c, d] (a + b) ↔ a = b) := by
  obtain ⟨r, hr, hiff⟩ := handleCavities_lengths hs hok
  have hr1 : List.range [c, d].length = [0, 1] := rfl
  rw [hr1] at hr
  have key : TotalLength h' [c, d] (b + b) := by
    rw [hiff]
    rcases cavityLoop_cons hs (i := 0) (c := c) rfl [1] [] [] hr with ⟨ht, p, h1, hp, hm, hr'⟩ | ⟨ht, hr'⟩
    · have hsame := merge_same hs (i := 0) (c := c) rfl hm
      obtain ⟨m, n, ea, eb, x, y, q1, q2, q3, q4, q5, q6, rfl⟩ := mergeDrifts_ok hs (i := 0) (c := c) rfl hm
      subst q4
      have hm1 : m = 1 := by
        simp only [List.length_cons, List.length_nil] at q3
        omega
      subst hm1
      simp only [List.getElem?_cons_succ, List.getElem?_cons_zero, Nat.zero_add, Option.some.injEq] at q1 q2
      subst q1 q2
      have hx : x = b := (hasLength_iff.2 (.inl q5)).unique hb
      have hy : y = b := (hasLength_iff.2 (.inl q6)).unique hb
      subst hx
      subst hy
      rcases cavityLoop_cons (es := [c, d]) (by rw [hsame.line]; exact hs) (i := 1) (c := d) rfl [] _ _ hr' with
        ⟨ht', p', h1', hp', hm', hr''⟩ | ⟨ht', hr''⟩
      · obtain ⟨_, n, _, eb, _, _, _, q2', _, q4', _⟩ := mergeDrifts_ok (es := [c, d]) (by rw [hsame.line]; exact hs)
          (i := 1) (c := d) rfl hm'
        subst q4'
        exact absurd q2' (by simp)
      · injection hr'' with hr''
        subst hr''
        have hf : ∀ e ∈ [c, d], HasLength (h.elem e) ((fun e => if e = c then a else y) e) := by
          intro e he
          simp only [List.mem_cons, List.not_mem_nil, or_false] at he
          rcases he with rfl | rfl
          · simpa using ha
          · simpa [Ne.symm hcd] using hb
        have := total_of_lens _ (setLen_lens (setLen_lens (setLen_lens hf d 0) d 0) c (y + y))
        simpa [Function.update_of_ne (Ne.symm hcd)] using this
    · exact absurd hcav ht
  refine ⟨key, ?_, ?_⟩
  · intro h3
    have := h3.unique key
    exact add_right_cancel this
  · rintro rfl
    exact key

/-- A cavity of length 3 between drifts of lengths 10 and 20: the length 3 is lost. -/
def exOwn : Heap Int := runOps (some "b".toList)
  [.addElement 0 "d1".toList "drift".toList [("L".toList, .num 10)] false,
   .addElement 0 "c1".toList "rfca".toList [("PHASE".toList, .num 30), ("L".toList, .num 3)] false,
   .addElement 0 "d2".toList "drift".toList [("L".toList, .num 20)] false]

example : ∃ h', handleCavities 90 exOwn = .ok h' ∧ TotalLength exOwn [0, 1, 2] 33 ∧ TotalLength h' [0, 1, 2] 30 := by
  have hv : TotalLength exOwn [0, 1, 2] 33 := by
    obtain ⟨v, h1, h2⟩ := of_sumLength (show sumLength exOwn [0, 1, 2] 0 = .ok 33 by decide +kernel)
    rw [zero_add] at h2
    exact h2 ▸ h1
  cases hok : handleCavities 90 exOwn with
  | error e =>
    have : (handleCavities 90 exOwn).toOption.isSome = true := by decide +kernel
    rw [hok] at this
    exact absurd this (by simp [Except.toOption])
  | ok h' =>
    refine ⟨h', rfl, hv, ?_⟩
    have hs : (exOwn.line 0).seq = [0, 1, 2].map Item.elem := by decide +kernel
    have hown : ∀ e ∈ [0, 1, 2], HasLength (exOwn.elem e) ((fun e => if e = 0 then (10 : Int) else if e = 1 then 3 else 20) e) := by
      intro e he
      refine hasLength_iff.2 (.inl ?_)
      revert e
      decide +kernel
    have := (cavity_length_exact 90 exOwn h' [0, 1, 2] hs (by decide) (by decide)
      (fun e => decide ((exOwn.elem e).type = "rfca".toList)) (fun e => by simp [Cavity]) _ hown hv hok).1
    have e : ownLengths (fun e => decide ((exOwn.elem e).type = "rfca".toList))
      (fun e => if e = 0 then (10 : Int) else if e = 1 then 3 else 20) false [0, 1, 2] = 3 := by decide +kernel
    rw [e] at this
    exact this

end Verif.Trace
