import Mathlib.Data.List.Induction
import Verif.Lattice.Spec

/-! # Lemmas on dictionaries, flattening and lengths -/

namespace Verif.Lattice

variable {R : Type}

theorem dget_nil {K V : Type} [DecidableEq K] (k : K) : dget ([] : Dict K V) k = none := rfl

theorem dget_cons {K V : Type} [DecidableEq K] (p : K × V) (d : Dict K V) (k : K) :
    dget (p :: d) k = if p.1 = k then some p.2 else dget d k := by
  unfold dget
  by_cases h : p.1 = k
  · simp [h]
  · simp [h]

theorem dget_dset {K V : Type} [DecidableEq K] (d : Dict K V) (k k' : K) (v : V) :
    dget (dset d k v) k' = if k' = k then some v else dget d k' := by
  induction d with
  | nil => simp only [dset, dget_cons, dget_nil, eq_comm]
  | cons p d ih =>
    unfold dset
    split_ifs with h1 h2 h2
    · simp [dget_cons, h2]
    · have h3 : ¬ k = k' := fun e => h2 e.symm
      have h4 : ¬ p.1 = k' := fun e => h2 (e.symm.trans h1)
      simp [dget_cons, h3, h4]
    · subst h2
      rw [dget_cons, if_neg h1, ih, if_pos rfl]
    · rw [dget_cons, dget_cons, ih, if_neg h2]

theorem mem_dset {K V : Type} [DecidableEq K] (d : Dict K V) (k : K) (v : V) (p : K × V)
    (h : p ∈ dset d k v) : p = (k, v) ∨ p ∈ d := by
  induction d with
  | nil => left; simpa [dset] using h
  | cons q d ih =>
    unfold dset at h
    split_ifs at h with h1
    · rcases List.mem_cons.mp h with h | h
      · exact .inl h
      · exact .inr (List.mem_cons_of_mem _ h)
    · rcases List.mem_cons.mp h with h | h
      · exact .inr (h ▸ List.mem_cons_self)
      · rcases ih h with h | h
        · exact .inl h
        · exact .inr (List.mem_cons_of_mem _ h)

theorem mem_of_dget {K V : Type} [DecidableEq K] {d : Dict K V} {k : K} {v : V}
    (h : dget d k = some v) : (k, v) ∈ d := by
  induction d with
  | nil => simp [dget_nil] at h
  | cons p d ih =>
    rw [dget_cons] at h
    split_ifs at h with h1
    · obtain ⟨a, b⟩ := p
      simp only [Option.some.injEq] at h h1
      subst h1 h
      exact List.mem_cons_self
    · exact List.mem_cons_of_mem _ (ih h)

theorem dget_none_iff {K V : Type} [DecidableEq K] (d : Dict K V) (k : K) :
    dget d k = none ↔ ∀ p ∈ d, p.1 ≠ k := by
  induction d with
  | nil => simp [dget_nil]
  | cons p d ih =>
    rw [dget_cons]
    split_ifs with h
    · simp [h]
    · simp [ih, h]

theorem dget_some_iff {K V : Type} [DecidableEq K] (d : Dict K V) (k : K) (v : V) :
    dget d k = some v ↔ ∃ pre post, d = pre ++ (k, v) :: post ∧ ∀ p ∈ pre, p.1 ≠ k := by
  induction d with
  | nil => simp [dget_nil]
  | cons p d ih =>
    rw [dget_cons]
    split_ifs with h
    · constructor
      · intro e
        obtain ⟨a, b⟩ := p
        simp only [Option.some.injEq] at e h
        subst e h
        exact ⟨[], d, rfl, by simp⟩
      · rintro ⟨pre, post, e, hp⟩
        cases pre with
        | nil => simp at e; simp [e.1]
        | cons q pre =>
          simp at e
          exact absurd (e.1 ▸ h) (hp q (by simp))
    · rw [ih]
      constructor
      · rintro ⟨pre, post, e, hp⟩
        refine ⟨p :: pre, post, by simp [e], ?_⟩
        intro q hq
        rcases List.mem_cons.mp hq with hq | hq
        · exact hq ▸ h
        · exact hp q hq
      · rintro ⟨pre, post, e, hp⟩
        cases pre with
        | nil => simp at e; exact absurd (by simp [e.1]) h
        | cons q pre =>
          simp at e
          exact ⟨pre, post, e.2, fun x hx => hp x (by simp [hx])⟩

theorem assigned_nil (k : Str) : assigned ([] : List (Str × PVal R)) k = none := rfl

theorem assigned_snoc (pv : List (Str × PVal R)) (q : Str × PVal R) (k : Str) :
    assigned (pv ++ [q]) k = if lower q.1 = lower k then some q.2 else assigned pv k := by
  unfold assigned
  rw [List.filter_append]
  by_cases h : lower q.1 = lower k
  · simp [h]
  · simp [h]

theorem getItem_setItem (d : Params R) (k k' : Str) (v : PVal R) :
    Params.getItem (Params.setItem d k v) k' = if lower k = lower k' then some v else Params.getItem d k' := by
  unfold Params.getItem Params.setItem
  rw [dget_dset]
  simp only [eq_comm]

theorem getItem_foldl (pv : List (Str × PVal R)) (d : Params R) (k : Str) :
    Params.getItem (pv.foldl (fun d kv => Params.setItem d kv.1 kv.2) d) k =
      match assigned pv k with
      | some v => some v
      | none => Params.getItem d k := by
  induction pv using List.reverseRecOn with
  | nil => rfl
  | append_singleton pv q ih =>
    rw [List.foldl_append, assigned_snoc]
    simp only [List.foldl_cons, List.foldl_nil]
    rw [getItem_setItem]
    split_ifs with h
    · rfl
    · exact ih

/-! ## Flattening -/

/-- Flattening of a list of entries. -/
def flatSeq (h : Heap R) (n : Nat) (s : List Item) : Option (List Nat) :=
  (s.mapM (h.flatItem n)).map List.flatten

theorem elementsOf_eq (h : Heap R) (n l : Nat) : h.elementsOf n l = flatSeq h n (h.line l).seq := rfl

theorem flatSeq_nil (h : Heap R) (n : Nat) : flatSeq h n [] = some [] := rfl

theorem flatSeq_cons (h : Heap R) (n : Nat) (i : Item) (s : List Item) :
    flatSeq h n (i :: s) = (h.flatItem n i).bind fun a => (flatSeq h n s).map (a ++ ·) := by
  unfold flatSeq
  rw [List.mapM_cons]
  cases h.flatItem n i with
  | none => rfl
  | some a => cases List.mapM (h.flatItem n) s <;> rfl

theorem flatItem_elem (h : Heap R) (n e : Nat) : h.flatItem n (.elem e) = some [e] := by
  cases n <;> rfl

theorem flatItem_line (h : Heap R) (n l : Nat) :
    h.flatItem (n + 1) (.line l) = flatSeq h n (h.line l).seq := rfl

theorem flatSeq_elem (h : Heap R) (n e : Nat) (s : List Item) :
    flatSeq h n (.elem e :: s) = (flatSeq h n s).map (e :: ·) := by
  rw [flatSeq_cons, flatItem_elem]
  cases flatSeq h n s <;> rfl

theorem flatSeq_sound (h : Heap R) : ∀ (n : Nat) (s : List Item) (es : List Nat),
    flatSeq h n s = some es → Unfolds h s es := by
  intro n
  induction n with
  | zero =>
    intro s
    induction s with
    | nil => intro es he; simp [flatSeq_nil] at he; subst he; exact .nil
    | cons i s ih =>
      intro es he
      cases i with
      | elem e =>
        rw [flatSeq_elem] at he
        cases hs : flatSeq h 0 s with
        | none => simp [hs] at he
        | some t => simp [hs] at he; subst he; exact .elem (ih t hs)
      | line l => rw [flatSeq_cons] at he; simp [Heap.flatItem] at he
  | succ n ihn =>
    intro s
    induction s with
    | nil => intro es he; simp [flatSeq_nil] at he; subst he; exact .nil
    | cons i s ih =>
      intro es he
      cases i with
      | elem e =>
        rw [flatSeq_elem] at he
        cases hs : flatSeq h (n + 1) s with
        | none => simp [hs] at he
        | some t => simp [hs] at he; subst he; exact .elem (ih t hs)
      | line l =>
        rw [flatSeq_cons, flatItem_line] at he
        cases ha : flatSeq h n (h.line l).seq with
        | none => simp [ha] at he
        | some a =>
          cases hs : flatSeq h (n + 1) s with
          | none => simp [ha, hs] at he
          | some t => simp [ha, hs] at he; subst he; exact .line (ihn _ a ha) (ih t hs)

theorem flatSeq_mono (h : Heap R) : ∀ (n : Nat) (s : List Item) (es : List Nat),
    flatSeq h n s = some es → flatSeq h (n + 1) s = some es := by
  intro n
  induction n with
  | zero =>
    intro s
    induction s with
    | nil => intro es he; exact he
    | cons i s ih =>
      intro es he
      cases i with
      | elem e =>
        rw [flatSeq_elem] at he ⊢
        cases hs : flatSeq h 0 s with
        | none => simp [hs] at he
        | some t => rw [ih t hs]; rw [hs] at he; exact he
      | line l => rw [flatSeq_cons] at he; simp [Heap.flatItem] at he
  | succ n ihn =>
    intro s
    induction s with
    | nil => intro es he; exact he
    | cons i s ih =>
      intro es he
      cases i with
      | elem e =>
        rw [flatSeq_elem] at he ⊢
        cases hs : flatSeq h (n + 1) s with
        | none => simp [hs] at he
        | some t => rw [ih t hs]; rw [hs] at he; exact he
      | line l =>
        rw [flatSeq_cons, flatItem_line] at he ⊢
        cases ha : flatSeq h n (h.line l).seq with
        | none => simp [ha] at he
        | some a =>
          cases hs : flatSeq h (n + 1) s with
          | none => simp [ha, hs] at he
          | some t => rw [ihn _ a ha, ih t hs]; rw [ha, hs] at he; exact he

theorem flatSeq_le (h : Heap R) {n m : Nat} (hnm : n ≤ m) {s : List Item} {es : List Nat}
    (he : flatSeq h n s = some es) : flatSeq h m s = some es := by
  induction hnm with
  | refl => exact he
  | step _ ih => exact flatSeq_mono h _ s es ih

theorem flatSeq_complete (h : Heap R) {s : List Item} {es : List Nat} (hu : Unfolds h s es) :
    ∃ n, ∀ m, n ≤ m → flatSeq h m s = some es := by
  induction hu with
  | nil => exact ⟨0, fun _ _ => rfl⟩
  | elem _ ih =>
    obtain ⟨n, hn⟩ := ih
    exact ⟨n, fun m hm => by rw [flatSeq_elem, hn m hm]; rfl⟩
  | line _ _ iha ihb =>
    obtain ⟨a, ha⟩ := iha
    obtain ⟨b, hb⟩ := ihb
    refine ⟨max a b + 1, fun m hm => ?_⟩
    obtain ⟨k, rfl⟩ : ∃ k, m = k + 1 := ⟨m - 1, by omega⟩
    rw [flatSeq_cons, flatItem_line, ha k (by omega), hb (k + 1) (by omega)]
    rfl

theorem Unfolds.unique {h : Heap R} {s : List Item} {as bs : List Nat} (ha : Unfolds h s as)
    (hb : Unfolds h s bs) : as = bs := by
  obtain ⟨n, hn⟩ := flatSeq_complete h ha
  obtain ⟨m, hm⟩ := flatSeq_complete h hb
  have h1 := hn (max n m) (by omega)
  have h2 := hm (max n m) (by omega)
  rw [h1] at h2
  exact Option.some.inj h2

theorem Unfolds.append {h : Heap R} {s t : List Item} {as bs : List Nat} (ha : Unfolds h s as)
    (hb : Unfolds h t bs) : Unfolds h (s ++ t) (as ++ bs) := by
  induction ha with
  | nil => exact hb
  | elem _ ih => exact .elem ih
  | line h1 _ _ ih => rw [List.append_assoc]; exact .line h1 ih

theorem Unfolds.split {h : Heap R} {s t : List Item} {cs : List Nat} (hc : Unfolds h (s ++ t) cs) :
    ∃ as bs, cs = as ++ bs ∧ Unfolds h s as ∧ Unfolds h t bs := by
  induction s generalizing cs with
  | nil => exact ⟨[], cs, rfl, .nil, hc⟩
  | cons i s ih =>
    rw [List.cons_append] at hc
    cases hc with
    | elem hc =>
      obtain ⟨as, bs, rfl, h1, h2⟩ := ih hc
      exact ⟨_ :: as, bs, rfl, .elem h1, h2⟩
    | line ha hc =>
      obtain ⟨as, bs, rfl, h1, h2⟩ := ih hc
      exact ⟨_ ++ as, bs, by rw [List.append_assoc], .line ha h1, h2⟩

theorem unfolds_elems (h : Heap R) (es : List Nat) : Unfolds h (es.map .elem) es := by
  induction es with
  | nil => exact .nil
  | cons e es ih => exact .elem ih

theorem Unfolds.mem_elem {h : Heap R} {s : List Item} {es : List Nat} (hu : Unfolds h s es) {e : Nat}
    (he : Item.elem e ∈ s) : e ∈ es := by
  induction hu with
  | nil => simp at he
  | elem _ ih =>
    rcases List.mem_cons.mp he with he | he
    · simp at he; simp [he]
    · exact List.mem_cons_of_mem _ (ih he)
  | line _ _ _ ih =>
    rcases List.mem_cons.mp he with he | he
    · simp at he
    · exact List.mem_append_right _ (ih he)

theorem Unfolds.mem_line {h : Heap R} {s : List Item} {es : List Nat} (hu : Unfolds h s es) {l : Nat}
    (hl : Item.line l ∈ s) : ∃ as, Unfolds h (h.line l).seq as ∧ ∀ a ∈ as, a ∈ es := by
  induction hu with
  | nil => simp at hl
  | elem _ ih =>
    rcases List.mem_cons.mp hl with hl | hl
    · simp at hl
    · obtain ⟨as, h1, h2⟩ := ih hl
      exact ⟨as, h1, fun a ha => List.mem_cons_of_mem _ (h2 a ha)⟩
  | @line l' s as bs h1 _ _ ih =>
    rcases List.mem_cons.mp hl with hl | hl
    · simp at hl; subst hl
      exact ⟨as, h1, fun a ha => List.mem_append_left _ ha⟩
    · obtain ⟨as', h1, h2⟩ := ih hl
      exact ⟨as', h1, fun a ha => List.mem_append_right _ (h2 a ha)⟩

/-! ## Lengths -/

theorem lowerL : lower "L".toList = "l".toList := by decide

section
variable [AddMonoid R]

theorem addLength_of {x : Elem R} {v : R} (hx : HasLength x v) (len : R) : addLength len x = .ok (len + v) := by
  unfold addLength Params.getItem
  rw [lowerL]
  rcases hx with ⟨h1, rfl⟩ | ⟨pre, post, h1, h2⟩
  · rw [(dget_none_iff _ _).mpr h1]
    simp
  · rw [(dget_some_iff _ _ _).mpr ⟨pre, post, h1, h2⟩]

theorem of_addLength {x : Elem R} {len r : R} (hx : addLength len x = .ok r) :
    ∃ v, HasLength x v ∧ r = len + v := by
  unfold addLength Params.getItem at hx
  rw [lowerL] at hx
  cases hd : dget x.params "l".toList with
  | none =>
    rw [hd] at hx
    exact ⟨0, .inl ⟨(dget_none_iff _ _).mp hd, rfl⟩, by simpa using hx.symm⟩
  | some p =>
    rw [hd] at hx
    cases p with
    | num v =>
      simp only [Except.ok.injEq] at hx
      exact ⟨v, .inr ((dget_some_iff _ _ _).mp hd), hx.symm⟩
    | str s => simp at hx

theorem sumLength_of {h : Heap R} {es : List Nat} {v : R} (hx : TotalLength h es v) (len : R) :
    sumLength h es len = .ok (len + v) := by
  induction hx generalizing len with
  | nil => simp [sumLength]
  | cons h1 _ ih =>
    simp only [sumLength, addLength_of h1]
    show sumLength h _ _ = _
    rw [ih, add_assoc]

theorem of_sumLength {h : Heap R} {es : List Nat} {len r : R} (hx : sumLength h es len = .ok r) :
    ∃ v, TotalLength h es v ∧ r = len + v := by
  induction es generalizing len with
  | nil =>
    simp only [sumLength, Except.ok.injEq] at hx
    exact ⟨0, .nil, by simp [hx]⟩
  | cons e es ih =>
    simp only [sumLength] at hx
    cases ha : addLength len (h.elem e) with
    | error err => rw [ha] at hx; cases hx
    | ok len' =>
      rw [ha] at hx
      obtain ⟨v, h1, rfl⟩ := of_addLength ha
      obtain ⟨w, h2, h3⟩ := ih (len := len + v) hx
      exact ⟨v + w, .cons h1 h2, by rw [h3, add_assoc]⟩

theorem TotalLength.append {h : Heap R} {as bs : List Nat} {a b : R} (ha : TotalLength h as a)
    (hb : TotalLength h bs b) : TotalLength h (as ++ bs) (a + b) := by
  induction ha with
  | nil => simpa using hb
  | cons h1 _ ih => rw [List.cons_append, add_assoc]; exact .cons h1 ih

theorem TotalLength.split {h : Heap R} {as bs : List Nat} {c : R} (hc : TotalLength h (as ++ bs) c) :
    ∃ a b, c = a + b ∧ TotalLength h as a ∧ TotalLength h bs b := by
  induction as generalizing c with
  | nil => exact ⟨0, c, by simp, .nil, hc⟩
  | cons e as ih =>
    rw [List.cons_append] at hc
    cases hc with
    | cons h1 h2 =>
      obtain ⟨a, b, rfl, h3, h4⟩ := ih h2
      exact ⟨_ + a, b, by rw [add_assoc], .cons h1 h3, h4⟩

theorem measures_iff {h : Heap R} {s : List Item} {es : List Nat} (hu : Unfolds h s es) (v : R) :
    Measures h s v ↔ TotalLength h es v := by
  constructor
  · intro hm
    induction hm generalizing es with
    | nil => cases hu; exact .nil
    | elem h1 _ ih => cases hu with | elem hu => exact .cons h1 (ih hu)
    | line _ _ iha ihb => cases hu with | line h1 h2 => exact (iha h1).append (ihb h2)
  · intro ht
    induction hu generalizing v with
    | nil => cases ht; exact .nil
    | elem _ ih => cases ht with | cons h1 h2 => exact .elem h1 (ih _ h2)
    | line _ _ iha ihb =>
      obtain ⟨a, b, rfl, h1, h2⟩ := ht.split
      exact .line (iha _ h1) (ihb _ h2)

theorem HasLength.unique {x : Elem R} {v w : R} (hv : HasLength x v) (hw : HasLength x w) : v = w := by
  have h1 := addLength_of hv 0
  have h2 := addLength_of hw 0
  rw [h1] at h2
  simpa using h2

theorem TotalLength.unique {h : Heap R} {es : List Nat} {v w : R} (hv : TotalLength h es v)
    (hw : TotalLength h es w) : v = w := by
  have h1 := sumLength_of hv 0
  have h2 := sumLength_of hw 0
  rw [h1] at h2
  simpa using h2

theorem sumEdge_of {h : Heap R} {me : Nat} {pre post : List Nat} {v : R} (hm : me ∉ pre)
    (hx : TotalLength h pre v) (len : R) : sumEdge h me (pre ++ me :: post) len = .ok (len + v) := by
  induction hx generalizing len with
  | nil => simp [sumEdge]
  | @cons e es a b h1 _ ih =>
    simp only [List.mem_cons, not_or] at hm
    have hne : ¬ e = me := fun he => hm.1 he.symm
    simp only [List.cons_append, sumEdge, if_neg hne, addLength_of h1]
    show sumEdge h me _ _ = _
    rw [ih hm.2, add_assoc]

end

end Verif.Lattice
