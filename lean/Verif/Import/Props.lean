import Verif.Import.Lemmas

/-!
# Property C38: the imported beamline has the elements of the JSON lattice

The full statement, for every lattice: if the items of the line called `name` stand for the
elements `es` then the imported beamline has the elements `es`. It is false for lines that are used
twice in one line and for reversed lines that contain lines; see `import_repeated_fails` and
`import_reversed_fails`.
-/

namespace Verif.Import

open Verif.Lattice

variable {R : Type}

/-- The lines that a line is made of, at any depth. -/
inductive Within (J : Json R) (L : JLine) : JLine → Prop
  | self : Within J L L
  | sub {M N i} : Within J L M → i ∈ M.items → J.line? i = some N → Within J L N

/-- No line is used twice in `M`. -/
def NoRepeat (J : Json R) (M : JLine) : Prop := (M.items.filterMap fun i => (J.line? i).map JLine.name).Nodup

/-- Elements of `M` with the same name are the same. -/
def OneDef (J : Json R) (M : JLine) : Prop := ∀ i ∈ M.items, ∀ j ∈ M.items, J.line? i = none → J.line? j = none →
  ∀ e f, J.elem? i = some e → J.elem? j = some f → e.name = f.name → e = f

/-- Lines used in reversed order in `M` have no lines. -/
def FlatReversed (J : Json R) (M : JLine) : Prop := ∀ i ∈ M.items, i < 0 → ∀ N, J.line? i = some N → ∀ j ∈ N.items, J.line? j = none

theorem firstDef_of {J : Json R} {T : List Int}
    (ho : ∀ i ∈ T, ∀ j ∈ T, J.line? i = none → J.line? j = none → ∀ e f, J.elem? i = some e → J.elem? j = some f → e.name = f.name → e = f)
    {i : Int} (hi : i ∈ T) (hl : J.line? i = none) {e e' : JElem R} (he : J.elem? i = some e) (hf : firstDef J T e.name = some e') :
    e' = e := by
  unfold firstDef at hf
  have h1 := List.find?_some hf
  have h2 := List.mem_of_find?_eq_some hf
  rw [List.mem_filterMap] at h2
  obtain ⟨j, hj, h3⟩ := h2
  unfold elemOf at h3
  split at h3
  · cases h3
  · rename_i hl'
    exact ho j hj i hi hl' hl _ _ h3 he (of_decide_eq_true h1)

theorem recv_of_nodup {J : Json R} {T : List Int} (hn : (T.filterMap fun i => (J.line? i).map JLine.name).Nodup)
    {i : Int} (hi : i ∈ T) {L : JLine} (hL : J.line? i = some L) :
    recv J T L.name = if 0 ≤ i then L.items else L.items.reverse := by
  induction T with
  | nil => cases hi
  | cons j T ih =>
    have hc : recv J (j :: T) L.name = recv1 J L.name j ++ recv J T L.name := by simp [recv]
    rw [hc]
    rcases List.mem_cons.mp hi with rfl | hi
    · have h1 : recv1 J L.name i = if 0 ≤ i then L.items else L.items.reverse := by
        unfold recv1; rw [hL]; simp only [if_true]
      rw [h1, recv_nil_of, List.append_nil]
      intro k hk M hM hm
      rw [List.filterMap_cons_some (b := L.name) (by rw [hL]; rfl), List.nodup_cons] at hn
      refine hn.1 ?_
      rw [List.mem_filterMap]
      exact ⟨k, hk, by rw [hM, ← hm]; rfl⟩
    · cases hM : J.line? j with
      | none =>
        rw [List.filterMap_cons_none (by rw [hM]; rfl)] at hn
        rw [ih hn hi]
        unfold recv1
        rw [hM]
        rfl
      | some M =>
        rw [List.filterMap_cons_some (b := M.name) (by rw [hM]; rfl), List.nodup_cons] at hn
        rw [ih hn.2 hi]
        unfold recv1
        rw [hM]
        simp only
        rw [if_neg, List.nil_append]
        intro hm
        refine hn.1 ?_
        rw [List.mem_filterMap]
        exact ⟨i, hi, by rw [hL, hm]; rfl⟩

theorem Stands.append {J : Json R} {as bs : List Int} {es fs : List (JElem R)} (h1 : Stands J as es) (h2 : Stands J bs fs) :
    Stands J (as ++ bs) (es ++ fs) := by
  induction h1 with
  | nil => exact h2
  | elem h3 h4 _ ih => exact .elem h3 h4 ih
  | line h3 h4 h5 _ _ ih => rw [List.append_assoc]; exact .line h3 h4 h5 ih
  | reversed h3 h4 h5 _ _ ih => rw [List.append_assoc]; exact .reversed h3 h4 h5 ih

theorem Stands.reverse {J : Json R} {is : List Int} {es : List (JElem R)} (h : Stands J is es) (hf : ∀ i ∈ is, J.line? i = none) :
    Stands J is.reverse es.reverse := by
  induction h with
  | nil => exact .nil
  | elem h3 h4 _ ih =>
    rw [List.reverse_cons, List.reverse_cons]
    exact (ih fun i hi => hf i (by simp [hi])).append (.elem h3 h4 .nil)
  | @line i _ L _ _ _ h4 _ _ _ _ => rw [hf i (by simp)] at h4; cases h4
  | @reversed i _ L _ _ _ h4 _ _ _ _ => rw [hf i (by simp)] at h4; cases h4

theorem stands_of_makes {J : Json R} {L : JLine} (h1 : ∀ M, Within J L M → NoRepeat J M) (h2 : ∀ M, Within J L M → OneDef J M)
    (h3 : ∀ M, Within J L M → FlatReversed J M) {T is : List Int} {es : List (JElem R)} (hm : Makes J T is es) :
    ∀ M, Within J L M → (T = M.items ∨ T = M.items.reverse) → (∀ i ∈ is, i ∈ T) → Stands J is es := by
  induction hm with
  | nil => intros; exact .nil
  | @elem T i is e e' es ha hb hc _ ih =>
    intro M hM hT hi
    have hT' : ∀ j, j ∈ T ↔ j ∈ M.items := by rcases hT with rfl | rfl <;> simp
    have : e' = e := firstDef_of (T := T) (fun a ha b hb => h2 M hM a ((hT' a).1 ha) b ((hT' b).1 hb)) (hi i (by simp)) ha hb hc
    subst this
    exact .elem ha hb (ih M hM hT fun j hj => hi j (by simp [hj]))
  | @line T i is N as bs ha _ _ ih1 ih2 =>
    intro M hM hT hi
    have hT' : ∀ j, j ∈ T ↔ j ∈ M.items := by rcases hT with rfl | rfl <;> simp
    have hiM := (hT' i).1 (hi i (by simp))
    have hN : Within J L N := .sub hM hiM ha
    have hrec := ih2 M hM hT fun j hj => hi j (by simp [hj])
    have hnd : (T.filterMap fun i => (J.line? i).map JLine.name).Nodup := by
      rcases hT with rfl | rfl
      · exact h1 M hM
      · rw [List.filterMap_reverse]; exact List.pairwise_reverse.2 ((h1 M hM).imp fun h => h.symm)
    have hr := recv_of_nodup hnd (hi i (by simp)) ha
    by_cases hs : 0 ≤ i
    · rw [if_pos hs] at hr
      refine .line hs ha ?_ hrec
      have := ih1 N hN (.inl hr) (fun _ h => h)
      rwa [hr] at this
    · rw [if_neg hs] at hr
      have hf := h3 M hM i hiM (by omega) N ha
      have h4 := ih1 N hN (.inr hr) (fun _ h => h)
      rw [hr] at h4
      have h5 := h4.reverse fun j hj => hf j (List.mem_reverse.1 hj)
      rw [List.reverse_reverse] at h5
      have := Stands.reversed (i := i) (by omega) ha h5 hrec
      rwa [List.reverse_reverse] at this

theorem Stands.unique {J : Json R} {is : List Int} {es fs : List (JElem R)} (h1 : Stands J is es) (h2 : Stands J is fs) : es = fs := by
  induction h1 generalizing fs with
  | nil => cases h2; rfl
  | elem ha hb _ ih =>
    cases h2 with
    | elem hc hd h => rw [hb] at hd; cases hd; rw [ih h]
    | line _ hc => rw [ha] at hc; cases hc
    | reversed _ hc => rw [ha] at hc; cases hc
  | line hp ha _ _ ih1 ih2 =>
    cases h2 with
    | elem hc => rw [ha] at hc; cases hc
    | line _ hc h3 h4 => rw [ha] at hc; cases hc; rw [ih1 h3, ih2 h4]
    | reversed hq => omega
  | reversed hp ha _ _ ih1 ih2 =>
    cases h2 with
    | elem hc => rw [ha] at hc; cases hc
    | line hq => omega
    | reversed _ hc h3 h4 => rw [ha] at hc; cases hc; rw [ih1 h3, ih2 h4]

/-! ## Success -/

/-- The element can be created: no parameter has the name of an argument of the constructor. -/
def Plain (e : JElem R) : Prop := ∀ kv ∈ e.params, kv.1 ∉ reserved

/-- All items are known and nested at most `d` deep. -/
def Known (J : Json R) : Nat → Int → Prop
  | 0, i => J.line? i = none ∧ ∃ e, J.elem? i = some e ∧ Plain e
  | d + 1, i => (J.line? i = none ∧ ∃ e, J.elem? i = some e ∧ Plain e) ∨ ∃ L, J.line? i = some L ∧ ∀ j ∈ L.items, Known J d j

theorem Known.succ {J : Json R} {d : Nat} {i : Int} (h : Known J d i) : Known J (d + 1) i := by
  induction d generalizing i with
  | zero => exact .inl h
  | succ d ih =>
    rcases h with h | ⟨L, h1, h2⟩
    · exact .inl h
    · exact .inr ⟨L, h1, fun j hj => ih (h2 j hj)⟩

theorem Known.le {J : Json R} {d d' : Nat} (hd : d ≤ d') {i : Int} (h : Known J d i) : Known J d' i := by
  induction hd with
  | refl => exact h
  | step _ ih => exact ih.succ

theorem Stands.known {J : Json R} {is : List Int} {es : List (JElem R)} (h : Stands J is es) (hp : ∀ e ∈ es, Plain e) :
    ∃ d, ∀ i ∈ is, Known J d i := by
  induction h with
  | nil => exact ⟨0, by simp⟩
  | @elem i is e es h1 h2 _ ih =>
    obtain ⟨d, hd⟩ := ih fun e he => hp e (by simp [he])
    refine ⟨d, fun j hj => ?_⟩
    rcases List.mem_cons.mp hj with rfl | hj
    · cases d with
      | zero => exact ⟨h1, e, h2, hp e (by simp)⟩
      | succ d => exact .inl ⟨h1, e, h2, hp e (by simp)⟩
    · exact hd j hj
  | @line i is L as bs _ h1 _ _ ih1 ih2 =>
    obtain ⟨d1, hd1⟩ := ih1 fun e he => hp e (by simp [he])
    obtain ⟨d2, hd2⟩ := ih2 fun e he => hp e (by simp [he])
    refine ⟨max d1 d2 + 1, fun j hj => ?_⟩
    rcases List.mem_cons.mp hj with rfl | hj
    · exact .inr ⟨L, h1, fun k hk => (hd1 k hk).le (by omega)⟩
    · exact (hd2 j hj).le (by omega)
  | @reversed i is L as bs _ h1 _ _ ih1 ih2 =>
    obtain ⟨d1, hd1⟩ := ih1 fun e he => hp e (by simp [he])
    obtain ⟨d2, hd2⟩ := ih2 fun e he => hp e (by simp [he])
    refine ⟨max d1 d2 + 1, fun j hj => ?_⟩
    rcases List.mem_cons.mp hj with rfl | hj
    · exact .inr ⟨L, h1, fun k hk => (hd1 k hk).le (by omega)⟩
    · exact (hd2 j hj).le (by omega)

theorem addElem_ok {J : Json R} (hc : J.cache.isSome) {i : Int} {e : JElem R} (he : J.elem? i = some e) (hp : Plain e) {l : Nat}
    {h : Heap R} (w : h.WF) (hl : l < h.nLine) : ∃ h', addElem J i l h = .ok h' ∧ h'.WF ∧ h'.nLine = h.nLine := by
  obtain ⟨c, hc⟩ := Option.isSome_iff_exists.1 hc
  unfold addElem
  rw [he]
  simp only [replaceRpn, hc]
  generalize hps : e.params.map (fun kv => (kv.1, replaceVal c kv.2)) = ps
  have hu : ∃ r, h.useElement l e.name e.type ps = .ok r := by
    unfold Heap.useElement
    cases dget (h.line l).elements e.name with
    | some x => exact ⟨_, rfl⟩
    | none =>
      have : newElem e.name e.type ps = .ok ⟨e.name, strip (lower e.type), initParams ps, 0⟩ := by
        unfold newElem
        rw [if_neg]
        intro hany
        rw [List.any_eq_true] at hany
        obtain ⟨kv, hkv, h2⟩ := hany
        rw [← hps, List.mem_map] at hkv
        obtain ⟨kv', h3, rfl⟩ := hkv
        exact hp kv' h3 (by simpa using h2)
      rw [this]
      exact ⟨_, rfl⟩
  obtain ⟨r, hr⟩ := hu
  rw [addElement_eq hr]
  refine ⟨_, rfl, ?_, ?_⟩
  · have := w.addElement hl e.name e.type ps false
    rw [addElement_eq hr] at this
    exact this
  · exact (used_of w hl hr).nLine

theorem genWith_ok {J : Json R} (hc : J.cache.isSome) {sub : List Int → Nat → Heap R → Except PyErr (Heap R)}
    (is : List Int) (hi : ∀ i ∈ is, (J.line? i = none ∧ ∃ e, J.elem? i = some e ∧ Plain e) ∨ ∃ L, J.line? i = some L ∧
      ∀ is', (∀ j ∈ is', j ∈ L.items) → ∀ l h, h.WF → l < h.nLine → ∃ h', sub is' l h = .ok h' ∧ h'.WF ∧ h.nLine ≤ h'.nLine) :
    ∀ l h, h.WF → l < h.nLine → ∃ h', genWith J sub is l h = .ok h' ∧ h'.WF ∧ h.nLine ≤ h'.nLine := by
  induction is with
  | nil => intro l h w _; exact ⟨h, rfl, w, Nat.le_refl _⟩
  | cons i is ih =>
    intro l h w hl
    unfold genWith
    rcases hi i (by simp) with ⟨h1, e, h2, h3⟩ | ⟨L, h1, h2⟩
    · rw [h1]
      simp only
      obtain ⟨h', h4, h5, h6⟩ := addElem_ok hc h2 h3 w hl
      rw [h4]
      simp only
      obtain ⟨h'', h7, h8, h9⟩ := ih (fun j hj => hi j (by simp [hj])) l h' h5 (by omega)
      exact ⟨h'', h7, h8, by omega⟩
    · rw [h1]
      simp only
      obtain ⟨k, f1, f2, f3, _, _, _, _, _, f9⟩ := addBeamline_facts w hl (some L.name)
      have hmono : h.nLine ≤ (h.addBeamline l (some L.name)).nLine := by
        rcases f9 with ⟨_, h1⟩ | ⟨_, _, h1, _⟩ <;> omega
      rw [f1]
      simp only
      obtain ⟨h2', h4, h5, h6⟩ := h2 (if 0 ≤ i then L.items else L.items.reverse) (by split_ifs <;> simp) k _
        (w.addBeamline hl (some L.name)) f3
      rw [h4]
      simp only
      obtain ⟨h'', h7, h8, h9⟩ := ih (fun j hj => hi j (by simp [hj])) l h2' h5 (by omega)
      exact ⟨h'', h7, h8, by omega⟩

theorem generate_ok {J : Json R} (hc : J.cache.isSome) (d : Nat) (is : List Int) (hi : ∀ i ∈ is, Known J d i) :
    ∀ l h, h.WF → l < h.nLine → ∃ h', generate J d is l h = .ok h' ∧ h'.WF ∧ h.nLine ≤ h'.nLine := by
  induction d generalizing is with
  | zero =>
    exact genWith_ok hc is fun i h => .inl (hi i h)
  | succ d ih =>
    refine genWith_ok hc is fun i h => ?_
    rcases hi i h with h1 | ⟨L, h1, h2⟩
    · exact .inl h1
    · exact .inr ⟨L, h1, fun is' hs => ih is' fun j hj => h2 j (hs j hj)⟩

/-! ## The property -/

/-- C38, for lattices in which no line uses a line twice, a name in a line stands for one element,
and lines used in reversed order have no lines: if the items of the line stand for `es` then the
import succeeds, given enough depth of recursion, and the beamline has the elements `es`. -/
theorem import_partial {J : Json R} (hc : J.cache.isSome) {name : Str} {i : Int} {L : JLine} {es : List (JElem R)}
    (hL : J.lineDict.find? (fun kv => kv.2.name = name) = some (i, L))
    (h1 : ∀ M, Within J L M → NoRepeat J M) (h2 : ∀ M, Within J L M → OneDef J M) (h3 : ∀ M, Within J L M → FlatReversed J M)
    (hs : Stands J L.items es) (hp : ∀ e ∈ es, Plain e) :
    ∃ d0, ∀ d ≥ d0, ∃ h, parseJson J d name = .ok h ∧ HasElements J h es := by
  obtain ⟨d0, hd0⟩ := hs.known hp
  refine ⟨d0, fun d hd => ?_⟩
  obtain ⟨h, hr, _⟩ := generate_ok hc d L.items (fun j hj => (hd0 j hj).le hd) 0 (Heap.init (some L.name)) (init_wf _) Nat.one_pos
  have hr' : parseJson J d name = .ok h := by
    unfold parseJson
    rw [hL]
    exact hr
  obtain ⟨es', hm, hh⟩ := import_exact hr' hL
  have : es' = es := (stands_of_makes h1 h2 h3 hm L .self (.inl rfl) (fun _ h => h)).unique hs
  exact ⟨h, hr', this ▸ hh⟩

theorem HasElements.names {J : Json R} {h : Heap R} {es fs : List (JElem R)} (h1 : HasElements J h es) (h2 : HasElements J h fs) :
    es.map JElem.name = fs.map JElem.name := by
  have key : ∀ {es : List (JElem R)} {xs : List (Elem R)}, List.Forall₂ (IsElem J) es xs → es.map JElem.name = xs.map Elem.name := by
    intro es xs hf
    induction hf with
    | nil => rfl
    | cons hx _ ih => rw [List.map_cons, List.map_cons, ih, hx.1]
  obtain ⟨as, hu, hf⟩ := h1
  obtain ⟨bs, hu', hf'⟩ := h2
  rw [hu.unique hu'] at hf
  rw [key hf, key hf']

theorem makes_elems {J : Json R} {T is : List Int} {es fs : List (JElem R)}
    (ho : ∀ i ∈ T, ∀ j ∈ T, J.line? i = none → J.line? j = none → ∀ e f, J.elem? i = some e → J.elem? j = some f → e.name = f.name → e = f)
    (hf : ∀ i ∈ is, J.line? i = none) (hs : Stands J is es) (hi : ∀ i ∈ is, i ∈ T) (hm : Makes J T is fs) : fs = es := by
  induction hs generalizing fs with
  | nil => cases hm; rfl
  | elem h1 h2 _ ih =>
    cases hm with
    | elem _ h4 h5 h6 =>
      rw [h2] at h4
      cases h4
      rw [ih (fun j hj => hf j (by simp [hj])) (fun j hj => hi j (by simp [hj])) h6, firstDef_of ho (hi _ (by simp)) h1 h2 h5]
    | line h3 => rw [h1] at h3; cases h3
  | line _ h1 => rw [hf _ (by simp)] at h1; cases h1
  | reversed _ h1 => rw [hf _ (by simp)] at h1; cases h1

theorem stands_replicate {J : Json R} {a : Int} (ha : 0 ≤ a) {A : JLine} (hA : J.line? a = some A) {es : List (JElem R)}
    (hs : Stands J A.items es) (n : Nat) : Stands J (List.replicate n a) (List.replicate n es).flatten := by
  induction n with
  | zero => exact .nil
  | succ n ih => rw [List.replicate_succ, List.replicate_succ, List.flatten_cons]; exact .line ha hA hs ih

theorem recv_replicate {J : Json R} {a : Int} (ha : 0 ≤ a) {A : JLine} (hA : J.line? a = some A) (n : Nat) :
    recv J (List.replicate n a) A.name = (List.replicate n A.items).flatten := by
  induction n with
  | zero => rfl
  | succ n ih =>
    rw [List.replicate_succ, List.replicate_succ, List.flatten_cons, ← ih]
    simp [recv, recv1, hA, ha]

theorem stands_flatten {J : Json R} {is : List Int} {es : List (JElem R)} (hs : Stands J is es) (n : Nat) :
    Stands J (List.replicate n is).flatten (List.replicate n es).flatten := by
  induction n with
  | zero => exact .nil
  | succ n ih => rw [List.replicate_succ, List.replicate_succ, List.flatten_cons, List.flatten_cons]; exact hs.append ih

theorem flatten_replicate {α : Type} (xs : List α) (m n : Nat) :
    (List.replicate n (List.replicate m xs).flatten).flatten = (List.replicate (n * m) xs).flatten := by
  induction n with
  | zero => simp
  | succ n ih =>
    rw [List.replicate_succ, List.flatten_cons, ih, Nat.succ_mul, Nat.add_comm, List.replicate_add, List.flatten_append]

/-- C38 fails when a line is used more than once: a line that uses the line `A` `n` times gets the
elements of `A` `n * n` times. -/
theorem import_repeated_fails {J : Json R} {name : Str} {i a : Int} {L A : JLine} {n d : Nat} {es : List (JElem R)} {h : Heap R}
    (hL : J.lineDict.find? (fun kv => kv.2.name = name) = some (i, L)) (hn : L.items = List.replicate n a) (ha : 0 ≤ a)
    (hA : J.line? a = some A) (hf : ∀ j ∈ A.items, J.line? j = none) (ho : OneDef J A) (hs : Stands J A.items es)
    (hr : parseJson J d name = .ok h) :
    Stands J L.items (List.replicate n es).flatten ∧ HasElements J h (List.replicate (n * n) es).flatten ∧
      (1 < n → es ≠ [] → ¬ HasElements J h (List.replicate n es).flatten) := by
  obtain ⟨fs, hm, hh⟩ := import_exact hr hL
  rw [hn] at hm ⊢
  have hrec := recv_replicate ha hA n
  have hflat : ∀ j ∈ (List.replicate n A.items).flatten, j ∈ A.items := by
    intro j hj
    rw [List.mem_flatten] at hj
    obtain ⟨l, hl, hj⟩ := hj
    rw [(List.mem_replicate.1 hl).2] at hj
    exact hj
  have key : ∀ k, ∀ fs, Makes J (List.replicate n a) (List.replicate k a) fs →
      fs = (List.replicate k (List.replicate n es).flatten).flatten := by
    intro k
    induction k with
    | zero => intro fs hm; cases hm; rfl
    | succ k ih =>
      intro fs hm
      rw [List.replicate_succ] at hm ⊢
      cases hm with
      | elem h1 => rw [hA] at h1; cases h1
      | line h1 h2 h3 =>
        rw [hA] at h1
        cases h1
        rw [hrec] at h2
        rw [List.flatten_cons, ← ih _ h3]
        congr 1
        exact makes_elems (fun x hx y hy => ho x (hflat x hx) y (hflat y hy)) (fun j hj => hf j (hflat j hj))
          (stands_flatten hs n) (fun _ h => h) h2
  have hfs := key n fs hm
  rw [flatten_replicate] at hfs
  subst hfs
  refine ⟨stands_replicate ha hA hs n, hh, ?_⟩
  intro h1 hne hw
  have := congrArg List.length (hh.names hw)
  simp only [List.length_map, List.length_flatten, List.map_replicate, List.sum_replicate_nat] at this
  have hpos : 0 < es.length := List.length_pos_iff.2 hne
  have h2 := Nat.eq_of_mul_eq_mul_right hpos this
  have h3 : n * n > n * 1 := Nat.mul_lt_mul_of_pos_left h1 (by omega)
  omega

/-- C38 fails when a reversed line has a line: its elements stay in their order. -/
theorem import_reversed_fails {J : Json R} {name : Str} {i a b : Int} {L A B : JLine} {d : Nat} {es : List (JElem R)} {h : Heap R}
    (hL : J.lineDict.find? (fun kv => kv.2.name = name) = some (i, L)) (hn : L.items = [-b]) (hb : 0 < b)
    (hB : J.line? b = some B) (hBi : B.items = [a]) (ha : 0 ≤ a)
    (hA : J.line? a = some A) (hf : ∀ j ∈ A.items, J.line? j = none) (ho : OneDef J A) (hs : Stands J A.items es)
    (hr : parseJson J d name = .ok h) :
    Stands J L.items es.reverse ∧ HasElements J h es ∧
      (es.reverse.map JElem.name ≠ es.map JElem.name → ¬ HasElements J h es.reverse) := by
  have hB' : J.line? (-b) = some B := by
    unfold Json.line? at hB ⊢
    rw [Int.natAbs_neg]; exact hB
  have hst : Stands J L.items es.reverse := by
    rw [hn]
    have h1 : Stands J B.items es := by
      rw [hBi]
      have := Stands.line ha hA hs .nil
      rwa [List.append_nil] at this
    have := Stands.reversed (i := -b) (by omega) hB' h1 .nil
    rwa [List.append_nil] at this
  obtain ⟨fs, hm, hh⟩ := import_exact hr hL
  rw [hn] at hm
  have hrB : recv J [-b] B.name = [a] := by
    simp [recv, recv1, hB', hBi, show ¬ (0 ≤ -b) by omega]
  have hrA : recv J [a] A.name = A.items := by simp [recv, recv1, hA, ha]
  have hfs : fs = es := by
    cases hm with
    | elem h1 => rw [hB'] at h1; cases h1
    | line h1 h2 h3 =>
      rw [hB'] at h1
      cases h1
      cases h3
      rw [hrB] at h2
      cases h2 with
      | elem h1 => rw [hA] at h1; cases h1
      | line h1 h2 h3 =>
        rw [hA] at h1
        cases h1
        cases h3
        rw [hrA] at h2
        rw [List.append_nil, List.append_nil]
        exact makes_elems ho hf hs (fun _ h => h) h2
  subst hfs
  exact ⟨hst, hh, fun hne hw => hne (hw.names hh)⟩

/-- An unknown name is reported, whatever the document. -/
theorem import_unknown (J : Json R) (d : Nat) (name : Str) :
    (∀ kv ∈ J.lineDict, kv.2.name ≠ name) → parseJson J d name = .error .valueError := by
  intro hn
  unfold parseJson
  rw [List.find?_eq_none.2 fun kv hkv => by simpa using hn kv hkv]

/-! ## Examples -/

def exJson : Json Int :=
  { lines := [(1, ⟨"cell".toList, [10, 11]⟩), (2, ⟨"ring".toList, [1, 12, -3]⟩), (3, ⟨"back".toList, [11, 10]⟩), (4, ⟨"two".toList, [1, 1]⟩),
      (5, ⟨"rev".toList, [-6]⟩), (6, ⟨"outer".toList, [1]⟩)]
    elems := [(10, ⟨"Q1".toList, "QUAD".toList, [("k1".toList, .str "kq".toList)]⟩), (11, ⟨"D1".toList, "DRIF".toList, [("l".toList, .num 2)]⟩),
      (12, ⟨"M".toList, "MARK".toList, []⟩)]
    cache := some [("kq".toList, .num 7)] }

/-- The names of the elements that are imported, and one parameter. -/
example : (parseJson exJson 5 "ring".toList).toOption.bind (fun h => (h.elementsOf 5 0).map fun es => es.map fun e =>
    ((h.elem e).name, Params.getItem (h.elem e).params "k1".toList)) =
    some [("Q1".toList, some (.num 7)), ("D1".toList, none), ("M".toList, none), ("Q1".toList, some (.num 7)), ("D1".toList, none)] := by
  decide +kernel

example : (parseJson exJson 5 "two".toList).toOption.bind (fun h => (h.elementsOf 5 0).map fun es => es.map fun e => (h.elem e).name) =
    some ((List.replicate 4 ["Q1".toList, "D1".toList]).flatten) := by
  decide +kernel

example : (parseJson exJson 5 "rev".toList).toOption.bind (fun h => (h.elementsOf 5 0).map fun es => es.map fun e => (h.elem e).name) =
    some ["Q1".toList, "D1".toList] := by
  decide +kernel

/-- The ring meets the hypotheses of `import_partial`. -/
example : ∃ L, exJson.lineDict.find? (fun kv => kv.2.name = "ring".toList) = some (2, L) ∧
    (∀ M, Within exJson L M → NoRepeat exJson M ∧ FlatReversed exJson M) := by
  refine ⟨⟨"ring".toList, [1, 12, -3]⟩, rfl, ?_⟩
  have h1 : exJson.line? 1 = some ⟨"cell".toList, [10, 11]⟩ := rfl
  have h2 : exJson.line? (-3) = some ⟨"back".toList, [11, 10]⟩ := rfl
  have h3 : exJson.line? 10 = none := rfl
  have h4 : exJson.line? 11 = none := rfl
  have h5 : exJson.line? 12 = none := rfl
  have hw : ∀ M, Within exJson ⟨"ring".toList, [1, 12, -3]⟩ M → M = ⟨"ring".toList, [1, 12, -3]⟩ ∨ M = ⟨"cell".toList, [10, 11]⟩ ∨
      M = ⟨"back".toList, [11, 10]⟩ := by
    intro M hM
    induction hM with
    | self => exact .inl rfl
    | sub _ hi hN ih =>
      rcases ih with rfl | rfl | rfl <;> simp only [List.mem_cons, List.not_mem_nil, or_false] at hi
      · rcases hi with rfl | rfl | rfl
        · rw [h1] at hN; cases hN; exact .inr (.inl rfl)
        · rw [h5] at hN; cases hN
        · rw [h2] at hN; cases hN; exact .inr (.inr rfl)
      · rcases hi with rfl | rfl
        · rw [h3] at hN; cases hN
        · rw [h4] at hN; cases hN
      · rcases hi with rfl | rfl
        · rw [h4] at hN; cases hN
        · rw [h3] at hN; cases hN
  intro M hM
  rcases hw M hM with rfl | rfl | rfl
  · refine ⟨by unfold NoRepeat; decide +kernel, ?_⟩
    intro i hi hneg N hN
    simp only [List.mem_cons, List.not_mem_nil, or_false] at hi
    rcases hi with rfl | rfl | rfl
    · omega
    · omega
    · rw [h2] at hN; cases hN
      intro j hj
      simp only [List.mem_cons, List.not_mem_nil, or_false] at hj
      rcases hj with rfl | rfl <;> rfl
  · refine ⟨by unfold NoRepeat; decide +kernel, ?_⟩
    intro i hi hneg
    simp only [List.mem_cons, List.not_mem_nil, or_false] at hi
    rcases hi with rfl | rfl <;> omega
  · refine ⟨by unfold NoRepeat; decide +kernel, ?_⟩
    intro i hi hneg
    simp only [List.mem_cons, List.not_mem_nil, or_false] at hi
    rcases hi with rfl | rfl <;> omega

/-- What the line `cell` of the example stands for. -/
theorem exJson_cell : OneDef exJson ⟨"cell".toList, [10, 11]⟩ ∧ (∀ j ∈ [(10 : Int), 11], exJson.line? j = none) ∧
    Stands exJson [10, 11] [⟨"Q1".toList, "QUAD".toList, [("k1".toList, .str "kq".toList)]⟩, ⟨"D1".toList, "DRIF".toList, [("l".toList, .num 2)]⟩] := by
  have h10 : exJson.line? 10 = none := by decide +kernel
  have h11 : exJson.line? 11 = none := by decide +kernel
  have e10 : exJson.elem? 10 = some ⟨"Q1".toList, "QUAD".toList, [("k1".toList, .str "kq".toList)]⟩ := by rfl
  have e11 : exJson.elem? 11 = some ⟨"D1".toList, "DRIF".toList, [("l".toList, .num 2)]⟩ := by rfl
  refine ⟨?_, ?_, .elem h10 e10 (.elem h11 e11 .nil)⟩
  · intro i hi j hj _ _ e f he hf hn
    simp only [List.mem_cons, List.not_mem_nil, or_false] at hi hj
    rcases hi with rfl | rfl <;> rcases hj with rfl | rfl
    · rw [he] at hf; exact Option.some.inj hf
    · rw [e10] at he; rw [e11] at hf; cases he; cases hf; exact absurd hn (by decide +kernel)
    · rw [e11] at he; rw [e10] at hf; cases he; cases hf; exact absurd hn (by decide +kernel)
    · rw [he] at hf; exact Option.some.inj hf
  · intro j hj
    simp only [List.mem_cons, List.not_mem_nil, or_false] at hj
    rcases hj with rfl | rfl <;> assumption

theorem ok_of_isSome {α : Type} {r : Except PyErr α} (h : r.toOption.isSome = true) : ∃ x, r = .ok x := by
  cases r with
  | ok x => exact ⟨x, rfl⟩
  | error e => cases h

/-- `two` is `cell, cell`, and is imported with eight elements. -/
example : ∃ h es, parseJson exJson 5 "two".toList = .ok h ∧ Stands exJson [1, 1] es ∧ ¬ HasElements exJson h es := by
  obtain ⟨h, hr⟩ := ok_of_isSome (show (parseJson exJson 5 "two".toList).toOption.isSome = true by decide +kernel)
  have := import_repeated_fails (n := 2) (i := 4) (L := ⟨"two".toList, [1, 1]⟩) (a := 1) (by rfl) (by rfl) (by decide) (by rfl)
    exJson_cell.2.1 exJson_cell.1 exJson_cell.2.2 hr
  exact ⟨h, _, hr, this.1, this.2.2 (by decide) (by simp)⟩

/-- `rev` is `-outer` with `outer` the line `cell`, and is imported in the order of `cell`. -/
example : ∃ h es, parseJson exJson 5 "rev".toList = .ok h ∧ Stands exJson [-6] es ∧ ¬ HasElements exJson h es := by
  obtain ⟨h, hr⟩ := ok_of_isSome (show (parseJson exJson 5 "rev".toList).toOption.isSome = true by decide +kernel)
  have := import_reversed_fails (i := 5) (L := ⟨"rev".toList, [-6]⟩) (b := 6) (a := 1) (by rfl) (by rfl) (by decide) (by rfl) (by rfl)
    (by decide) (by rfl) exJson_cell.2.1 exJson_cell.1 exJson_cell.2.2 hr
  exact ⟨h, _, hr, this.1, this.2.2 (by decide +kernel)⟩

end Verif.Import
