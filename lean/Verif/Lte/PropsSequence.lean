import Verif.Lte.PropsLine
import Verif.Lattice.PropsBeamline

/-!
# The sequence of elements built by the elegant parser (C31)

`Expands` says what a line stands for: its entries, lines inside it replaced by what they
stand for. `Acts` lists the calls the parser makes and `Rep` ties the beamline object to a
simple picture of it: the entries of the top level and the elements stored per line name.
-/

namespace Verif.Lte

open Verif.Lattice

variable {R : Type}

/-! ## Specification -/

/-- The names expand to the elements `es`; `us` are the lines entered on the way, one entry per
use. -/
inductive Expands (L : Str → Option (List Str)) : List Str → List Str → List Str → Prop
  | nil : Expands L [] [] []
  | elem {n rest es us} : L n = none → Expands L rest es us →
      Expands L (n :: rest) (dropQuotes n :: es) us
  | line {s its rest as us bs vs} : L s = some its → Expands L its as us → Expands L rest bs vs →
      Expands L (s :: rest) (as ++ bs) (s :: us ++ vs)

/-- The line, without quotes and white space in front, starts with the name and a colon. -/
def Defines (n line : Str) : Prop :=
  ∃ blanks rest, dropQuotes line = blanks ++ (n ++ ':' :: rest) ∧ Blank blanks ∧
    ∀ c, n.head? = some c → isSpace c = false

/-- The element `n` is defined, with this name, type and these parameters, by the last line that
starts with its name and a colon. -/
def DefinedAs (N : Nums R) (defs : List Str) (n : Str) (d : Str × Str × Params R) : Prop :=
  ∃ pre line post type ps, defs = pre ++ line :: post ∧ Defines n line ∧ (∀ l ∈ post, ¬ Defines n l) ∧
    findParameters N (dropQuotes line) = .ok (type, ps) ∧
    (∀ kv ∈ ps, kv.1 ∉ reserved) ∧ d = (n, strip (lower type), initParams ps)

theorem defines_iff (n line : Str) : Defines n line ↔ (n ++ [':']).isPrefixOf (lstrip (dropQuotes line)) = true := by
  rw [List.isPrefixOf_iff_prefix]
  have hsplit : ∀ s : Str, ∃ b, Blank b ∧ s = b ++ lstrip s := by
    intro s
    refine ⟨s.takeWhile isSpace, ?_, (List.takeWhile_append_dropWhile).symm⟩
    intro c hc
    induction s with
    | nil => simp at hc
    | cons d s ih =>
      rw [List.takeWhile_cons] at hc
      split at hc
      · rename_i hd
        rcases List.mem_cons.mp hc with rfl | hc
        · exact hd
        · exact ih hc
      · simp at hc
  constructor
  · rintro ⟨b, rest, h1, h2, h3⟩
    refine ⟨rest, ?_⟩
    rw [h1]
    unfold lstrip
    rw [dropWhile_append_all h2]
    cases n with
    | nil => rfl
    | cons c n =>
      have hc := h3 c rfl
      simp [List.dropWhile_cons, hc]
  · rintro ⟨rest, h⟩
    obtain ⟨b, hb, hs⟩ := hsplit (dropQuotes line)
    refine ⟨b, rest, ?_, hb, ?_⟩
    · rw [hs]
      conv_lhs => rw [← h]
      simp
    · intro c hc
      obtain ⟨m, rfl⟩ : ∃ m, n = c :: m := by
        cases n with
        | nil => simp at hc
        | cons d m => simp at hc; exact ⟨m, by rw [hc]⟩
      have hl : (lstrip (dropQuotes line)).head? = some c := by rw [← h]; rfl
      unfold lstrip at hl
      have := List.head?_dropWhile_not isSpace (dropQuotes line)
      rw [hl] at this
      simpa using this

/-- The parser finds the last definition. -/
theorem findDef_last {n : Str} {pre post : List Str} {line : Str} (h1 : Defines n line) (h2 : ∀ l ∈ post, ¬ Defines n l) :
    findDef (pre ++ line :: post) n = some (dropQuotes line) := by
  unfold findDef
  rw [List.map_append, List.reverse_append, List.map_cons, List.reverse_cons, List.find?_append, List.find?_append]
  have hp : (post.map dropQuotes).reverse.find? (fun line => (n ++ [':']).isPrefixOf (lstrip line)) = none := by
    rw [List.find?_eq_none]
    intro x hx
    obtain ⟨l, hl, rfl⟩ := List.mem_map.mp (List.mem_reverse.mp hx)
    exact fun h => h2 l hl ((defines_iff n l).mpr h)
  have hl : [dropQuotes line].find? (fun line => (n ++ [':']).isPrefixOf (lstrip line)) = some (dropQuotes line) := by
    rw [List.find?_cons]
    simp only [(defines_iff n line).mp h1]
  rw [hp, hl]
  rfl

/-- Name, type and parameters of an element of the heap. -/
def edata (h : Heap R) (e : Nat) : Str × Str × Params R :=
  ((h.elem e).name, (h.elem e).type, (h.elem e).params)

/-! ## Calls of the parser -/

/-- A call: `add_element(name, subline=sub)` or `add_beamline(name)`. -/
inductive Act
  | elem (n : Str) (sub : Bool)
  | line (s : Str)

/-- The calls for a list of names. -/
inductive Acts (L : Str → Option (List Str)) : Bool → List Str → List Act → Prop
  | nil {sub} : Acts L sub [] []
  | elem {sub n rest as} : L n = none → Acts L sub rest as →
      Acts L sub (n :: rest) (.elem (dropQuotes n) sub :: as)
  | line {sub s its rest as bs} : L s = some its → Acts L true its as → Acts L false rest bs →
      Acts L sub (s :: rest) (.line s :: (as ++ bs))

/-- Entry of the top level. -/
inductive Ent
  | elem (n : Str)
  | line (s : Str)
  deriving DecidableEq

/-- Entries of the top level and what is stored under a line name. -/
structure ABeam where
  ents : List Ent
  store : Str → List Str

/-- The picture after one call; `add_element` with the flag goes into the last entry. -/
def ABeam.act (A : ABeam) : Act → ABeam
  | .line s => { A with ents := A.ents ++ [.line s] }
  | .elem n false => { A with ents := A.ents ++ [.elem n] }
  | .elem n true => match A.ents.getLast? with
    | some (.line s) => { A with store := fun x => if x = s then A.store s ++ [n] else A.store x }
    | _ => A

/-- Several calls. -/
def ABeam.acts (A : ABeam) (as : List Act) : ABeam := as.foldl ABeam.act A

/-- The elements: a line shows everything stored under its name. -/
def ABeam.flat (A : ABeam) : List Str :=
  A.ents.flatMap fun
    | .elem n => [n]
    | .line s => A.store s

/-! ## The heap follows the picture -/

/-- The entry is an element with the data of `n`. -/
def ItemIs (D : Str → Str × Str × Params R) (h : Heap R) (it : Item) (n : Str) : Prop :=
  ∃ e, it = .elem e ∧ e < h.nElem ∧ edata h e = D n

/-- The entry of object 0. -/
def EntIs (D : Str → Str × Str × Params R) (h : Heap R) (it : Item) : Ent → Prop
  | .elem n => ItemIs D h it n
  | .line s => ∃ k, it = .line k ∧ dget (h.line 0).lines (some s) = some k

/-- Beamline object 0 of the heap and the picture. -/
structure Rep (D : Str → Str × Str × Params R) (h : Heap R) (A : ABeam) : Prop where
  pos : 0 < h.nLine
  seq : List.Forall₂ (EntIs D h) (h.line 0).seq A.ents
  lines : ∀ s k, dget (h.line 0).lines (some s) = some k → k ≠ 0 ∧ k < h.nLine ∧
    List.Forall₂ (ItemIs D h) (h.line k).seq (A.store s)
  noline : ∀ s, dget (h.line 0).lines (some s) = none → A.store s = []
  inj : ∀ s s' k, dget (h.line 0).lines (some s) = some k → dget (h.line 0).lines (some s') = some k → s = s'
  elems : ∀ n e, dget (h.line 0).elements n = some e → e < h.nElem ∧ edata h e = D n

/-- Old elements are still there. -/
def Ext (h h' : Heap R) : Prop := h.nElem ≤ h'.nElem ∧ ∀ e < h.nElem, edata h' e = edata h e

theorem ItemIs.ext {D : Str → Str × Str × Params R} {h h' : Heap R} (hx : Ext h h') {it : Item} {n : Str}
    (hi : ItemIs D h it n) : ItemIs D h' it n := by
  obtain ⟨e, h1, h2, h3⟩ := hi
  exact ⟨e, h1, Nat.lt_of_lt_of_le h2 hx.1, by rw [hx.2 e h2]; exact h3⟩

theorem EntIs.ext {D : Str → Str × Str × Params R} {h h' : Heap R} (hx : Ext h h')
    (hl : ∀ s k, dget (h.line 0).lines (some s) = some k → dget (h'.line 0).lines (some s) = some k)
    {it : Item} {n : Ent} (hi : EntIs D h it n) : EntIs D h' it n := by
  cases n with
  | elem n => exact ItemIs.ext hx hi
  | line s => obtain ⟨k, h1, h2⟩ := hi; exact ⟨k, h1, hl s k h2⟩

theorem rep_frame {D : Str → Str × Str × Params R} {h h' : Heap R} {A : ABeam} (hr : Rep D h A) (hx : Ext h h')
    (hn : h'.nLine = h.nLine) (hs : ∀ k, (h'.line k).seq = (h.line k).seq)
    (hl : (h'.line 0).lines = (h.line 0).lines)
    (he : ∀ n e, dget (h'.line 0).elements n = some e → e < h'.nElem ∧ edata h' e = D n) : Rep D h' A := by
  refine ⟨by rw [hn]; exact hr.pos, ?_, ?_, ?_, ?_, he⟩
  · rw [hs]
    exact hr.seq.imp fun _ _ hi => EntIs.ext hx (by rw [hl]; exact fun _ _ h => h) hi
  · intro s k hk
    rw [hl] at hk
    obtain ⟨h1, h2, h3⟩ := hr.lines s k hk
    refine ⟨h1, by rw [hn]; exact h2, ?_⟩
    rw [hs]
    exact h3.imp fun _ _ hi => ItemIs.ext hx hi
  · intro s hk
    rw [hl] at hk
    exact hr.noline s hk
  · intro s s' k h1 h2
    rw [hl] at h1 h2
    exact hr.inj s s' k h1 h2

theorem newElem_ok {n type : Str} {ps : List (Str × PVal R)} (h : ∀ kv ∈ ps, kv.1 ∉ reserved) :
    newElem n type ps = .ok ⟨n, strip (lower type), initParams ps, 0⟩ := by
  unfold newElem
  rw [if_neg]
  intro ha
  obtain ⟨kv, h1, h2⟩ := List.any_eq_true.mp ha
  exact h kv h1 (by simpa using h2)

theorem edata_setTop (h : Heap R) (e t k : Nat) : edata (h.setElem e { h.elem e with top := t }) k = edata h k := by
  unfold edata Heap.setElem
  by_cases hk : k = e
  · subst hk; simp
  · simp [hk]

/-- The element exists afterwards and nothing else changed. -/
theorem use_rep {D : Str → Str × Str × Params R} {h : Heap R} {A : ABeam} (hr : Rep D h A) {n type : Str}
    {ps : List (Str × PVal R)} (hp : ∀ kv ∈ ps, kv.1 ∉ reserved) (hd : D n = (n, strip (lower type), initParams ps)) :
    ∃ h1 e, h.useElement 0 n type ps = .ok (h1, e) ∧ Rep D h1 A ∧ e < h1.nElem ∧ edata h1 e = D n ∧
      (h1.line 0).seq = (h.line 0).seq := by
  unfold Heap.useElement
  cases hg : dget (h.line 0).elements n with
  | some e => exact ⟨h, e, rfl, hr, (hr.elems n e hg).1, (hr.elems n e hg).2, rfl⟩
  | none =>
    rw [newElem_ok hp]
    refine ⟨_, h.nElem, rfl, ?_, by simp [Heap.setElem, Heap.setLine], ?_, by simp [Heap.setElem, Heap.setLine]⟩
    · refine rep_frame hr ⟨by simp [Heap.setElem, Heap.setLine], ?_⟩ rfl ?_ ?_ ?_
      · intro e he
        have : e ≠ h.nElem := by omega
        simp [edata, Heap.setElem, Heap.setLine, this]
      · intro k
        by_cases hk : k = 0
        · subst hk; simp [Heap.setElem, Heap.setLine]
        · simp [Heap.setElem, Heap.setLine, hk]
      · simp [Heap.setElem, Heap.setLine]
      · intro m e hm
        have hm' : dget (dset (h.line 0).elements n h.nElem) m = some e := by
          simpa [Heap.setElem, Heap.setLine] using hm
        rw [dget_dset] at hm'
        split at hm'
        · rename_i heq
          injection hm' with hm'
          subst hm' heq
          refine ⟨by simp [Heap.setElem, Heap.setLine], ?_⟩
          simp [edata, Heap.setElem, Heap.setLine, hd]
        · obtain ⟨h1, h2⟩ := hr.elems m e hm'
          have : e ≠ h.nElem := by omega
          refine ⟨?_, ?_⟩
          · simp only [Heap.setElem, Heap.setLine]; omega
          · rw [← h2]
            simp [edata, Heap.setElem, Heap.setLine, this]
    · simp [edata, Heap.setElem, Heap.setLine, hd]

theorem forall2_snoc {α β : Type} {r : α → β → Prop} {l : List α} {m : List β} {a : α} {b : β}
    (h : List.Forall₂ r l m) (hab : r a b) : List.Forall₂ r (l ++ [a]) (m ++ [b]) := by
  induction h with
  | nil => exact .cons hab .nil
  | cons h1 _ ih => exact .cons h1 ih

theorem forall2_last {α β : Type} {r : α → β → Prop} {l : List α} {m : List β}
    (h : List.Forall₂ r l m) {b : β} (hb : m.getLast? = some b) : ∃ a, l.getLast? = some a ∧ r a b := by
  induction h with
  | nil => simp at hb
  | @cons a b' l m h1 h2 ih =>
    cases h2 with
    | nil => simp at hb; subst hb; exact ⟨a, rfl, h1⟩
    | cons h3 h4 =>
      rw [List.getLast?_cons_cons] at hb ⊢
      exact ih hb

/-- `add_element` follows the picture. -/
theorem elem_rep {D : Str → Str × Str × Params R} {h : Heap R} {A : ABeam} (hr : Rep D h A) {n type : Str}
    {ps : List (Str × PVal R)} (hp : ∀ kv ∈ ps, kv.1 ∉ reserved) (hd : D n = (n, strip (lower type), initParams ps))
    (sub : Bool) (hsub : sub = true → ∃ s, A.ents.getLast? = some (.line s)) :
    ∃ h', h.addElement 0 n type ps sub = (h', none) ∧ Rep D h' (A.act (.elem n sub)) := by
  obtain ⟨h1, e, hu, hr1, he, hed, hseq⟩ := use_rep hr hp hd
  unfold Heap.addElement
  rw [hu]
  have hr2 : Rep D (h1.setElem e { h1.elem e with top := (h1.line 0).top }) A := by
    refine rep_frame hr1 ⟨Nat.le_refl _, fun k _ => edata_setTop _ _ _ _⟩ rfl (fun _ => rfl) rfl ?_
    intro m k hk
    have := hr1.elems m k hk
    exact ⟨this.1, by rw [edata_setTop]; exact this.2⟩
  have he2 : edata (h1.setElem e { h1.elem e with top := (h1.line 0).top }) e = D n := by
    rw [edata_setTop]; exact hed
  have he3 : e < (h1.setElem e { h1.elem e with top := (h1.line 0).top }).nElem := he
  simp only
  generalize h1.setElem e { h1.elem e with top := (h1.line 0).top } = h2 at hr2 he2 he3
  have hext : ∀ k it, Ext h2 (h2.append k it) := fun k it => ⟨Nat.le_refl _, fun _ _ => rfl⟩
  have hlines : ∀ k it, ((h2.append k it).line 0).lines = (h2.line 0).lines := by
    intro k it
    by_cases hk : 0 = k
    · subst hk; simp [Heap.append, Heap.setLine]
    · simp [Heap.append, Heap.setLine, hk]
  have helems : ∀ k it, ((h2.append k it).line 0).elements = (h2.line 0).elements := by
    intro k it
    by_cases hk : 0 = k
    · subst hk; simp [Heap.append, Heap.setLine]
    · simp [Heap.append, Heap.setLine, hk]
  have hit : ∀ k it, ItemIs D (h2.append k it) (.elem e) n := fun k it => ⟨e, rfl, he3, he2⟩
  cases sub with
  | false =>
    refine ⟨_, rfl, ?_⟩
    refine ⟨hr2.pos, ?_, ?_, ?_, ?_, ?_⟩
    · have : ((h2.append 0 (.elem e)).line 0).seq = (h2.line 0).seq ++ [.elem e] := by
        simp [Heap.append, Heap.setLine]
      rw [this]
      exact forall2_snoc (hr2.seq.imp fun _ _ hi => EntIs.ext (hext _ _) (by rw [hlines]; exact fun _ _ h => h) hi)
        (hit _ _)
    · intro s k hk
      rw [hlines] at hk
      obtain ⟨a, b, c⟩ := hr2.lines s k hk
      refine ⟨a, b, ?_⟩
      have : ((h2.append 0 (.elem e)).line k).seq = (h2.line k).seq := by simp [Heap.append, Heap.setLine, a]
      rw [this]
      exact c.imp fun _ _ hi => ItemIs.ext (hext _ _) hi
    · intro s hk; rw [hlines] at hk; exact hr2.noline s hk
    · intro s s' k ha hb; rw [hlines] at ha hb; exact hr2.inj s s' k ha hb
    · intro m k hk; rw [helems] at hk; exact hr2.elems m k hk
  | true =>
    obtain ⟨s, hs⟩ := hsub rfl
    obtain ⟨it, hlast, k, rfl, hk⟩ := forall2_last hr2.seq hs
    obtain ⟨hk0, hkn, hkf⟩ := hr2.lines s k hk
    simp only [if_true, hlast]
    refine ⟨_, rfl, ?_⟩
    have hact : A.act (.elem n true) = { A with store := fun x => if x = s then A.store s ++ [n] else A.store x } := by
      unfold ABeam.act
      simp only [hs]
    rw [hact]
    have hk0' : ¬ (0 = k) := fun h => hk0 h.symm
    refine ⟨hr2.pos, ?_, ?_, ?_, ?_, ?_⟩
    · have : ((h2.append k (.elem e)).line 0).seq = (h2.line 0).seq := by simp [Heap.append, Heap.setLine, hk0']
      rw [this]
      exact hr2.seq.imp fun _ _ hi => EntIs.ext (hext _ _) (by rw [hlines]; exact fun _ _ h => h) hi
    · intro x l hl
      rw [hlines] at hl
      obtain ⟨a, b, c⟩ := hr2.lines x l hl
      refine ⟨a, b, ?_⟩
      by_cases hx : x = s
      · subst hx
        rw [hk] at hl
        injection hl with hl
        subst hl
        have : ((h2.append k (.elem e)).line k).seq = (h2.line k).seq ++ [.elem e] := by simp [Heap.append, Heap.setLine]
        rw [this]
        simp only [if_true]
        exact forall2_snoc (c.imp fun _ _ hi => ItemIs.ext (hext _ _) hi) (hit _ _)
      · have hne : l ≠ k := by
          rintro rfl
          exact hx (hr2.inj x s l hl hk)
        have : ((h2.append k (.elem e)).line l).seq = (h2.line l).seq := by simp [Heap.append, Heap.setLine, hne]
        rw [this]
        simp only [if_neg hx]
        exact c.imp fun _ _ hi => ItemIs.ext (hext _ _) hi
    · intro x hx
      rw [hlines] at hx
      have hne : x ≠ s := by rintro rfl; rw [hk] at hx; exact absurd hx (by simp)
      simp only [if_neg hne]
      exact hr2.noline x hx
    · intro x x' l ha hb; rw [hlines] at ha hb; exact hr2.inj x x' l ha hb
    · intro m l hl; rw [helems] at hl; exact hr2.elems m l hl

/-- `add_beamline` follows the picture. -/
theorem line_rep {D : Str → Str × Str × Params R} {h : Heap R} {A : ABeam} (hr : Rep D h A) (s : Str) :
    Rep D (h.addBeamline 0 (some s)) (A.act (.line s)) := by
  have key : ∃ h1 k, h.useLine 0 (some s) = (h1, k) ∧ Rep D h1 A ∧ dget (h1.line 0).lines (some s) = some k := by
    unfold Heap.useLine
    cases hg : dget (h.line 0).lines (some s) with
    | some k => exact ⟨h, k, rfl, hr, hg⟩
    | none =>
      refine ⟨_, _, rfl, ?_, ?_⟩
      · have hpos := hr.pos
        have h0 : ¬ (0 = h.nLine) := by omega
        have hn0 : h.nLine ≠ 0 := by omega
        have hdg : ∀ x, dget (dset (h.line 0).lines (some s) h.nLine) (some x) =
            if x = s then some h.nLine else dget (h.line 0).lines (some x) := by
          intro x
          rw [dget_dset]
          by_cases hx : x = s
          · subst hx; simp
          · have : ¬ (some x = some s) := by simpa using hx
            simp [hx, this]
        refine ⟨by simp [Heap.setLine], ?_, ?_, ?_, ?_, ?_⟩
        · simp only [Heap.setLine, if_true, if_neg h0]
          refine hr.seq.imp fun it en hi => ?_
          cases en with
          | elem n => exact hi
          | line x =>
            obtain ⟨k, h1, h2⟩ := hi
            refine ⟨k, h1, ?_⟩
            simp only [Heap.setLine, if_true, if_neg h0]
            rw [hdg, if_neg]
            · exact h2
            · rintro rfl; rw [hg] at h2; exact absurd h2 (by simp)
        · intro x k hk
          simp only [Heap.setLine, if_true, if_neg h0] at hk
          rw [hdg] at hk
          split at hk
          · rename_i hx
            injection hk with hk
            subst hk hx
            refine ⟨hn0, by simp [Heap.setLine], ?_⟩
            simp only [Heap.setLine, if_neg hn0, if_true, newLine]
            rw [hr.noline x hg]
            exact .nil
          · obtain ⟨a, b, c⟩ := hr.lines x k hk
            refine ⟨a, by simp only [Heap.setLine]; omega, ?_⟩
            have hkn : k ≠ h.nLine := by omega
            simp only [Heap.setLine, if_neg a, if_neg hkn]
            exact c
        · intro x hx
          simp only [Heap.setLine, if_true, if_neg h0] at hx
          rw [hdg] at hx
          split at hx
          · exact absurd hx (by simp)
          · exact hr.noline x hx
        · intro x x' k ha hb
          simp only [Heap.setLine, if_true, if_neg h0] at ha hb
          rw [hdg] at ha hb
          split at ha
          · rename_i hx
            split at hb
            · rename_i hx'; rw [hx, hx']
            · injection ha with ha
              obtain ⟨_, hlt, _⟩ := hr.lines x' k hb
              omega
          · split at hb
            · injection hb with hb
              obtain ⟨_, hlt, _⟩ := hr.lines x k ha
              omega
            · exact hr.inj x x' k ha hb
        · intro n e he
          simp only [Heap.setLine, if_true, if_neg h0] at he
          exact hr.elems n e he
      · simp only [Heap.setLine, if_true]
        rw [dget_dset]
        simp
  obtain ⟨h1, k, hu, hr1, hk⟩ := key
  unfold Heap.addBeamline
  rw [hu]
  simp only
  obtain ⟨hk0, hkn, hkf⟩ := hr1.lines s k hk
  have hk0' : ¬ (0 = k) := fun h => hk0 h.symm
  have hl : ∀ x : Line, (((h1.append 0 (.line k)).setLine k x).line 0) =
      { h1.line 0 with seq := (h1.line 0).seq ++ [.line k] } := by
    intro x
    simp [Heap.append, Heap.setLine, hk0']
  have hsq : ∀ j, j ≠ 0 → ∀ t, (((h1.append 0 (.line k)).setLine k { (h1.append 0 (.line k)).line k with top := t }).line j).seq =
      (h1.line j).seq := by
    intro j hj t
    by_cases hjk : j = k
    · subst hjk; simp [Heap.append, Heap.setLine, hj]
    · simp [Heap.append, Heap.setLine, hj, hjk]
  refine ⟨hr1.pos, ?_, ?_, ?_, ?_, ?_⟩
  · rw [hl]
    refine forall2_snoc (hr1.seq.imp fun it en hi => ?_) ⟨k, rfl, by rw [hl]; exact hk⟩
    cases en with
    | elem n => exact hi
    | line x => obtain ⟨j, a, b⟩ := hi; exact ⟨j, a, by rw [hl]; exact b⟩
  · intro x j hj
    rw [hl] at hj
    obtain ⟨a, b, c⟩ := hr1.lines x j hj
    refine ⟨a, b, ?_⟩
    rw [hsq j a]
    exact c
  · intro x hx; rw [hl] at hx; exact hr1.noline x hx
  · intro x x' j ha hb; rw [hl] at ha hb; exact hr1.inj x x' j ha hb
  · intro n e he; rw [hl] at he; exact hr1.elems n e he

theorem init_rep (D : Str → Str × Str × Params R) (title : Option Str) :
    Rep D (Heap.init title) ⟨[], fun _ => []⟩ := by
  refine ⟨by simp [Heap.init], .nil, ?_, fun _ _ => rfl, ?_, ?_⟩
  · intro s k h; simp [Heap.init, newLine, dget_nil] at h
  · intro s s' k h; simp [Heap.init, newLine, dget_nil] at h
  · intro n e h; simp [Heap.init, newLine, dget_nil] at h

/-- What `get_beamline_elements` sees. -/
theorem rep_flat {D : Str → Str × Str × Params R} {h : Heap R} {A : ABeam} (hr : Rep D h A) :
    ∃ ids, Unfolds h (h.line 0).seq ids ∧ ids.map (edata h) = A.flat.map D := by
  have hlist : ∀ (its : List Item) (ns : List Str), List.Forall₂ (ItemIs D h) its ns →
      ∃ ids, Unfolds h its ids ∧ ids.map (edata h) = ns.map D := by
    intro its ns hf
    induction hf with
    | nil => exact ⟨[], .nil, rfl⟩
    | cons h1 _ ih =>
      obtain ⟨e, rfl, _, he⟩ := h1
      obtain ⟨ids, h2, h3⟩ := ih
      exact ⟨e :: ids, .elem h2, by simp [he, h3]⟩
  have hgen : ∀ (its : List Item) (ens : List Ent), List.Forall₂ (EntIs D h) its ens →
      ∃ ids, Unfolds h its ids ∧ ids.map (edata h) = (ABeam.flat ⟨ens, A.store⟩).map D := by
    intro its ens hf
    induction hf with
    | nil => exact ⟨[], .nil, rfl⟩
    | @cons it en its ens h1 _ ih =>
      obtain ⟨ids, h2, h3⟩ := ih
      cases en with
      | elem n =>
        obtain ⟨e, rfl, _, he⟩ := h1
        exact ⟨e :: ids, .elem h2, by simp [ABeam.flat, he, h3]⟩
      | line s =>
        obtain ⟨k, rfl, hk⟩ := h1
        obtain ⟨_, _, hf⟩ := hr.lines s k hk
        obtain ⟨ids', h4, h5⟩ := hlist _ _ hf
        exact ⟨ids' ++ ids, .line h4 h2, by simp [ABeam.flat, h5, h3]⟩
  exact hgen _ _ hr.seq

/-! ## The machine makes these calls -/

/-- How the machine goes on when a line is finished. -/
def resume (N : Nums R) (defs : List Str) (L : Str → Option (List Str)) (fuel : Nat) (h : Heap R) :
    List (List Str) → Option (Except PyErr (Heap R))
  | [] => some (.ok h)
  | t :: ts => mloop N defs L fuel ⟨t, ts, false, h⟩

theorem mloop_done (N : Nums R) (defs : List Str) (L : Str → Option (List Str)) (fuel : Nat) (σ : List (List Str))
    (sub : Bool) (h : Heap R) : mloop N defs L fuel ⟨[], σ, sub, h⟩ = some (.ok h) := by
  cases fuel <;> simp [mloop]

theorem mloop_succ (N : Nums R) (defs : List Str) (L : Str → Option (List Str)) (fuel : Nat) (st : MState R)
    (hne : st.cur ≠ []) : mloop N defs L (fuel + 1) st =
      match mstep N defs L st with
      | .ok st' => mloop N defs L fuel st'
      | .error e => some (.error e) := by
  rw [mloop, if_neg hne]
  rfl

theorem acts_append (A : ABeam) (as bs : List Act) : A.acts (as ++ bs) = (A.acts as).acts bs := by
  unfold ABeam.acts
  rw [List.foldl_append]

/-- The calls in `acts`, one per round. -/
theorem acts_run (N : Nums R) (defs : List Str) (L : Str → Option (List Str)) (D : Str → Str × Str × Params R)
    (hL : ∀ s its, L s = some its → its ≠ []) {sub : Bool} {cur : List Str} {as : List Act}
    (ha : Acts L sub cur as) : ∀ (h : Heap R) (A : ABeam) (σ : List (List Str)), cur ≠ [] → Rep D h A →
    (sub = true → ∃ s, A.ents.getLast? = some (.line s)) →
    (∀ n b, Act.elem n b ∈ as → DefinedAs N defs n (D n)) →
    ∃ h', Rep D h' (A.acts as) ∧
      ∀ fuel, mloop N defs L (as.length + fuel) ⟨cur, σ, sub, h⟩ = resume N defs L fuel h' σ := by
  induction ha with
  | nil => intro h A σ hne; exact absurd rfl hne
  | @elem sub n rest as hn hrest ih =>
    intro h A σ _ hr hsub hdef
    obtain ⟨pre, line, post, type, ps, h0, hd1, hd2, h2, h3, h4⟩ := hdef _ _ (List.mem_cons_self ..)
    have h1 : findDef defs (dropQuotes n) = some (dropQuotes line) := by
      rw [h0]
      exact findDef_last hd1 hd2
    obtain ⟨h', hadd, hr'⟩ := elem_rep hr h3 h4 sub hsub
    have hdd : addDefined N defs h (dropQuotes n) sub = .ok h' := by
      unfold addDefined
      simp only [h1, h2, hadd]
    have hdef' : ∀ m b, Act.elem m b ∈ as → DefinedAs N defs m (D m) :=
      fun m b hm => hdef m b (List.mem_cons_of_mem _ hm)
    have hstep : ∀ fuel, mloop N defs L ((as.length + fuel) + 1) ⟨n :: rest, σ, sub, h⟩ =
        if rest = [] then resume N defs L (as.length + fuel) h' σ
        else mloop N defs L (as.length + fuel) ⟨rest, σ, sub, h'⟩ := by
      intro fuel
      rw [mloop_succ _ _ _ _ _ (by simp)]
      unfold mstep
      simp only [hn, hdd]
      split_ifs with hre
      · cases σ with
        | nil => simp only [resume]; exact mloop_done ..
        | cons t ts => rfl
      · rfl
    by_cases hre : rest = []
    · subst hre
      cases hrest
      refine ⟨h', hr', fun fuel => ?_⟩
      have := hstep fuel
      simp only [if_true, List.length_nil, Nat.zero_add] at this
      simp only [List.length_cons, List.length_nil, Nat.zero_add]
      rw [Nat.add_comm]
      exact this
    · have hsub' : sub = true → ∃ s, (A.act (.elem (dropQuotes n) sub)).ents.getLast? = some (.line s) := by
        intro hs
        obtain ⟨s, hl⟩ := hsub hs
        subst hs
        refine ⟨s, ?_⟩
        unfold ABeam.act
        simp only [hl]
      obtain ⟨h'', hr'', hrun⟩ := ih h' _ σ hre hr' hsub' hdef'
      refine ⟨h'', hr'', fun fuel => ?_⟩
      have := hstep fuel
      rw [if_neg hre, hrun] at this
      rw [← this]
      congr 1
      simp only [List.length_cons]
      omega
  | @line sub s its rest as bs hs hits hrest ih1 ih2 =>
    intro h A σ _ hr hsub hdef
    have hr1 := line_rep hr s
    have hd1 : ∀ m b, Act.elem m b ∈ as → DefinedAs N defs m (D m) :=
      fun m b hm => hdef m b (List.mem_cons_of_mem _ (List.mem_append_left _ hm))
    have hd2 : ∀ m b, Act.elem m b ∈ bs → DefinedAs N defs m (D m) :=
      fun m b hm => hdef m b (List.mem_cons_of_mem _ (List.mem_append_right _ hm))
    have hlast : ∃ x, (A.act (.line s)).ents.getLast? = some (.line x) := ⟨s, by simp [ABeam.act]⟩
    have hstep : ∀ fuel, mloop N defs L (fuel + 1) ⟨s :: rest, σ, sub, h⟩ =
        mloop N defs L fuel ⟨its, if rest = [] then σ else rest :: σ, true, h.addBeamline 0 (some s)⟩ := by
      intro fuel
      rw [mloop_succ _ _ _ _ _ (by simp)]
      unfold mstep
      simp only [hs]
    by_cases hre : rest = []
    · subst hre
      cases hrest
      obtain ⟨h', hr', hrun⟩ := ih1 _ _ σ (hL s its hs) hr1 (fun _ => hlast) hd1
      refine ⟨h', by rw [List.append_nil]; exact hr', fun fuel => ?_⟩
      have := hstep (as.length + fuel)
      rw [if_pos rfl, hrun] at this
      rw [← this]
      congr 1
      simp only [List.length_cons, List.append_nil]
      omega
    · obtain ⟨h', hr', hrun⟩ := ih1 _ _ (rest :: σ) (hL s its hs) hr1 (fun _ => hlast) hd1
      obtain ⟨h'', hr'', hrun'⟩ := ih2 h' _ σ hre hr' (by intro h; exact absurd h (by simp)) hd2
      refine ⟨h'', ?_, fun fuel => ?_⟩
      · show Rep D h'' ((A.act (.line s)).acts (as ++ bs))
        rw [acts_append]
        exact hr''
      · have := hstep (as.length + (bs.length + fuel))
        rw [if_neg hre, hrun] at this
        rw [show (Act.line s :: (as ++ bs)).length + fuel = as.length + (bs.length + fuel) + 1 by
          simp only [List.length_cons, List.length_append]; omega, this]
        exact hrun' fuel

/-! ## Lines used at most once -/

/-- The line was not used yet. -/
def Fresh (A : ABeam) (s : Str) : Prop := Ent.line s ∉ A.ents ∧ A.store s = []

theorem fresh_act {A : ABeam} {x : Str} (hf : Fresh A x) (a : Act) (ha : ∀ s, a = .line s → s ≠ x) :
    Fresh (A.act a) x := by
  cases a with
  | line s =>
    refine ⟨?_, hf.2⟩
    simp only [ABeam.act, List.mem_append, List.mem_singleton, not_or]
    exact ⟨hf.1, fun h => ha s rfl (by injection h with h; exact h.symm)⟩
  | elem n b =>
    cases b with
    | false =>
      refine ⟨?_, hf.2⟩
      simp only [ABeam.act, List.mem_append, List.mem_singleton, not_or]
      exact ⟨hf.1, by simp⟩
    | true =>
      unfold ABeam.act
      simp only
      split
      · rename_i s hs
        refine ⟨hf.1, ?_⟩
        have : x ≠ s := by
          rintro rfl
          exact hf.1 (List.mem_of_getLast? hs)
        simp only [if_neg this]
        exact hf.2
      · exact hf

theorem fresh_acts {x : Str} (as : List Act) : ∀ {A : ABeam}, Fresh A x → (∀ s, Act.line s ∈ as → s ≠ x) →
    Fresh (A.acts as) x := by
  induction as with
  | nil => exact fun hf _ => hf
  | cons a as ih =>
    intro A hf ha
    exact ih (fresh_act hf a (fun s hs => ha s (by rw [hs]; simp))) fun s hs => ha s (List.mem_cons_of_mem _ hs)

/-- The calls exist and are counted by `Expands`. -/
theorem expands_acts {L : Str → Option (List Str)} {cur es us : List Str} (he : Expands L cur es us) :
    ∀ sub, ∃ as, Acts L sub cur as ∧ as.length = es.length + us.length ∧
      (∀ s, Act.line s ∈ as → s ∈ us) ∧ ∀ n b, Act.elem n b ∈ as → n ∈ es := by
  induction he with
  | nil => exact fun sub => ⟨[], .nil, rfl, by simp, by simp⟩
  | elem hn _ ih =>
    intro sub
    obtain ⟨as, h1, h2, h3, h4⟩ := ih sub
    refine ⟨_, .elem hn h1, ?_, ?_, ?_⟩
    · simp only [List.length_cons]; omega
    · intro s hs; exact h3 s (by simpa using hs)
    · intro m b hm
      rcases List.mem_cons.mp hm with hm | hm
      · injection hm with hm _; rw [hm]; simp
      · exact List.mem_cons_of_mem _ (h4 m b hm)
  | line hs _ _ ih1 ih2 =>
    intro sub
    obtain ⟨as, h1, h2, h3, h4⟩ := ih1 true
    obtain ⟨bs, g1, g2, g3, g4⟩ := ih2 false
    refine ⟨_, .line hs h1 g1, ?_, ?_, ?_⟩
    · simp only [List.length_cons, List.length_append]; omega
    · intro x hx
      rcases List.mem_cons.mp hx with hx | hx
      · injection hx with hx; rw [hx]; simp
      · rcases List.mem_append.mp hx with hx | hx
        · have := h3 x hx; simp [this]
        · have := g3 x hx; simp [this]
    · intro m b hm
      rcases List.mem_cons.mp hm with hm | hm
      · cases hm
      · rcases List.mem_append.mp hm with hm | hm
        · exact List.mem_append_left _ (h4 m b hm)
        · exact List.mem_append_right _ (g4 m b hm)

theorem flat_append (l₁ l₂ : List Ent) (st : Str → List Str) :
    ABeam.flat ⟨l₁ ++ l₂, st⟩ = ABeam.flat ⟨l₁, st⟩ ++ ABeam.flat ⟨l₂, st⟩ := by
  simp [ABeam.flat]

theorem flat_store {l : List Ent} {st : Str → List Str} {s : Str} (v : List Str) (h : Ent.line s ∉ l) :
    ABeam.flat ⟨l, fun x => if x = s then v else st x⟩ = ABeam.flat ⟨l, st⟩ := by
  induction l with
  | nil => rfl
  | cons e l ih =>
    have hl : Ent.line s ∉ l := fun hm => h (List.mem_cons_of_mem _ hm)
    have hc : ∀ st', ABeam.flat ⟨e :: l, st'⟩ = ABeam.flat ⟨[e], st'⟩ ++ ABeam.flat ⟨l, st'⟩ := fun st' =>
      flat_append [e] l st'
    rw [hc, hc, ih hl]
    congr 1
    cases e with
    | elem n => rfl
    | line x =>
      have : x ≠ s := by rintro rfl; exact h (List.mem_cons_self ..)
      simp [ABeam.flat, this]

/-- Every line used at most once: the elements are those of the expansion, in order. -/
theorem flat_linear {L : Str → Option (List Str)} {cur es us : List Str} (he : Expands L cur es us) :
    ∀ (sub : Bool) (as : List Act) (A : ABeam), Acts L sub cur as → us.Nodup → (∀ x ∈ us, Fresh A x) →
    (sub = true → ∃ pre s, A.ents = pre ++ [.line s] ∧ Ent.line s ∉ pre) →
    (A.acts as).flat = A.flat ++ es := by
  induction he with
  | nil =>
    intro sub as A ha _ _ _
    cases ha
    simp [ABeam.acts]
  | @elem n rest es us hn _ ih =>
    intro sub as A ha hnd hf hsub
    cases ha with
    | line hs _ _ => rw [hn] at hs; exact absurd hs (by simp)
    | @elem _ _ _ as' _ ha' =>
      show ((A.act (.elem (dropQuotes n) sub)).acts as').flat = _
      rw [ih sub as' _ ha' hnd (fun x hx => fresh_act (hf x hx) _ (by simp))]
      · rw [show dropQuotes n :: es = [dropQuotes n] ++ es from rfl, ← List.append_assoc]
        congr 1
        cases sub with
        | false => simp [ABeam.act, ABeam.flat]
        | true =>
          obtain ⟨pre, s, hp, hnot⟩ := hsub rfl
          unfold ABeam.act
          simp only [hp, List.getLast?_concat]
          rw [flat_append, flat_store _ hnot]
          obtain ⟨ents, store⟩ := A
          simp only at hp
          subst hp
          rw [flat_append]
          simp [ABeam.flat]
      · intro hs
        obtain ⟨pre, s, hp, hnot⟩ := hsub hs
        subst hs
        refine ⟨pre, s, ?_, hnot⟩
        unfold ABeam.act
        simp only [hp, List.getLast?_concat]
  | @line s its rest xs us ys vs hs hx hy ih1 ih2 =>
    intro sub as A ha hnd hf hsub
    cases ha with
    | elem hn _ => rw [hn] at hs; exact absurd hs (by simp)
    | @line _ _ its' _ as' bs' hs' ha1 ha2 =>
      rw [hs] at hs'
      injection hs' with hs'
      subst hs'
      have hnd' := List.nodup_cons.mp hnd
      have hnd2 := List.nodup_append.mp hnd'.2
      have hsf := hf s (by simp)
      have hfl : ∀ x ∈ us ++ vs, Fresh (A.act (.line s)) x := by
        intro x hx
        refine fresh_act (hf x (List.mem_cons_of_mem _ hx)) _ ?_
        intro s' hs'
        injection hs' with hs'
        subst hs'
        rintro rfl
        exact hnd'.1 hx
      have hlines : ∀ x, Act.line x ∈ as' → x ∈ us := by
        obtain ⟨as'', h1, _, h3, _⟩ := expands_acts hx true
        have huniq : as' = as'' := by
          have : ∀ {b c l l'}, Acts L b c l → Acts L b c l' → l = l' := by
            intro b c l l' h
            induction h generalizing l' with
            | nil => intro h'; cases h'; rfl
            | elem hn _ ih =>
              intro h'
              cases h' with
              | elem _ h2 => rw [ih h2]
              | line hq _ _ => rw [hn] at hq; exact absurd hq (by simp)
            | line hq _ _ i1 i2 =>
              intro h'
              cases h' with
              | elem hn _ => rw [hn] at hq; exact absurd hq (by simp)
              | line hq' h2 h3 =>
                rw [hq] at hq'
                injection hq' with hq'
                subst hq'
                rw [i1 h2, i2 h3]
          exact this ha1 h1
        rw [huniq]
        exact h3
      show ((A.act (.line s)).acts (as' ++ bs')).flat = _
      rw [acts_append, ih2 false bs' _ ha2 hnd2.2.1 ?_ (by intro h; exact absurd h (by simp)),
        ih1 true as' _ ha1 hnd2.1 (fun x hx => hfl x (List.mem_append_left _ hx)) ?_, ← List.append_assoc]
      · congr 2
        obtain ⟨ents, store⟩ := A
        show ABeam.flat ⟨ents ++ [.line s], store⟩ = _
        rw [flat_append]
        have : store s = [] := hsf.2
        simp [ABeam.flat, this]
      · exact fun _ => ⟨A.ents, s, rfl, hsf.1⟩
      · intro x hxv
        refine fresh_acts as' (hfl x (List.mem_append_right _ hxv)) ?_
        intro y hy'
        have := hnd2.2.2 y (hlines y hy') x hxv
        exact this

/-- What any use gives: the parser ends and shows the picture after the calls. -/
theorem parse_acts (N : Nums R) (f : Found) (L : Str → Option (List Str)) (hL : LinesOf f.lines L)
    (D : Str → Str × Str × Params R) (name : Str) (c : Char) (text : Str) (names : List Str) (title : Option Str)
    (hname : L name = some names) (htext : f.text = c :: text) (hnames : TextOf names text) {as : List Act}
    (ha : Acts L false names as) (hdef : ∀ n b, Act.elem n b ∈ as → DefinedAs N f.defs n (D n)) (fuel : Nat)
    (hfuel : as.length ≤ fuel) :
    ∃ h ids, parseLine N f name title fuel = some (.ok h) ∧ Unfolds h (h.line 0).seq ids ∧
      ids.map (edata h) = (ABeam.acts ⟨[], fun _ => []⟩ as).flat.map D := by
  have hne : ∀ s its, L s = some its → its ≠ [] := by
    intro s its hs
    rcases hL s with ⟨_, h2⟩ | ⟨c, t, ns, _, h2, h3⟩
    · rw [h2] at hs; exact absurd hs (by simp)
    · rw [h2] at hs; injection hs with hs; subst hs; exact textOf_ne h3
  have hin : (dget f.lines (some name)).isSome = true := by
    rcases hL name with ⟨h1, h2⟩ | ⟨c, t, ns, h1, h2, _⟩
    · rw [h2] at hname; exact absurd hname (by simp)
    · rw [h1]; rfl
  obtain ⟨h', hr, hrun⟩ := acts_run N f.defs L D hne ha (Heap.init title) ⟨[], fun _ => []⟩ [] (hne _ _ hname)
    (init_rep D title) (by intro h; exact absurd h (by simp)) hdef
  obtain ⟨ids, hu, hids⟩ := rep_flat hr
  refine ⟨h', ids, ?_, hu, hids⟩
  unfold parseLine
  rw [if_pos hin, htext]
  rw [loop_rel N f.defs f.lines L hL fuel _ ⟨names, [], false, Heap.init title⟩ ⟨.inl hnames, .nil, rfl, rfl⟩]
  obtain ⟨k, rfl⟩ : ∃ k, fuel = as.length + k := ⟨fuel - as.length, by omega⟩
  exact hrun k

/-- C31 for lines that are used at most once: the parser ends, and the elements of the beamline,
with names, types and parameters, are those of the expansion in order. Missing: lines used more
than once, see `sequence_repeat_fails`; layouts of the text outside `TextOf`. -/
theorem sequence_partial (N : Nums R) (f : Found) (L : Str → Option (List Str)) (hL : LinesOf f.lines L)
    (D : Str → Str × Str × Params R) (name : Str) (c : Char) (text : Str) (names es us : List Str)
    (title : Option Str) (hname : L name = some names) (htext : f.text = c :: text) (hnames : TextOf names text)
    (he : Expands L names es us) (hus : us.Nodup) (hdef : ∀ n ∈ es, DefinedAs N f.defs n (D n)) (fuel : Nat)
    (hfuel : es.length + us.length ≤ fuel) :
    ∃ h ids, parseLine N f name title fuel = some (.ok h) ∧ Unfolds h (h.line 0).seq ids ∧
      ids.map (edata h) = es.map D := by
  obtain ⟨as, h1, h2, _, h4⟩ := expands_acts he false
  obtain ⟨h, ids, h5, h6, h7⟩ := parse_acts N f L hL D name c text names title hname htext hnames h1
    (fun n b hn => hdef n (h4 n b hn)) fuel (by omega)
  refine ⟨h, ids, h5, h6, ?_⟩
  rw [h7, flat_linear he false as _ h1 hus (fun x _ => ⟨by simp, rfl⟩) (by intro h; exact absurd h (by simp))]
  rfl

/-- A line of elements used `k` times: its elements appear `k * k` times instead of `k` times. -/
theorem sequence_repeat_fails (N : Nums R) (f : Found) (L : Str → Option (List Str)) (hL : LinesOf f.lines L)
    (D : Str → Str × Str × Params R) (name s : Str) (c : Char) (text : Str) (ns : List Str) (k : Nat)
    (title : Option Str) (hname : L name = some (List.replicate k s)) (htext : f.text = c :: text)
    (hnames : TextOf (List.replicate k s) text) (hs : L s = some ns) (hns : ∀ n ∈ ns, L n = none)
    (hdef : ∀ n ∈ ns, DefinedAs N f.defs (dropQuotes n) (D (dropQuotes n))) (fuel : Nat)
    (hfuel : k * (ns.length + 1) ≤ fuel) :
    Expands L (List.replicate k s) (List.replicate k (ns.map dropQuotes)).flatten (List.replicate k s) ∧
    ∃ h ids, parseLine N f name title fuel = some (.ok h) ∧ Unfolds h (h.line 0).seq ids ∧
      ids.map (edata h) = ((List.replicate (k * k) (ns.map dropQuotes)).flatten).map D := by
  have hes : ∀ l : List Str, (∀ n ∈ l, L n = none) → Expands L l (l.map dropQuotes) [] := by
    intro l hl
    induction l with
    | nil => exact .nil
    | cons n l ih =>
      exact .elem (hl n (by simp)) (ih fun m hm => hl m (List.mem_cons_of_mem _ hm))
  have has : ∀ l : List Str, (∀ n ∈ l, L n = none) → Acts L true l (l.map fun n => .elem (dropQuotes n) true) := by
    intro l hl
    induction l with
    | nil => exact .nil
    | cons n l ih =>
      exact .elem (hl n (by simp)) (ih fun m hm => hl m (List.mem_cons_of_mem _ hm))
  refine ⟨?_, ?_⟩
  · clear hname hnames hfuel
    induction k with
    | zero => exact .nil
    | succ k ih =>
      rw [List.replicate_succ, List.replicate_succ, List.flatten_cons]
      have := Expands.line hs (hes ns hns) ih
      simpa using this
  · have hall : Acts L false (List.replicate k s)
        (List.replicate k (Act.line s :: ns.map fun n => .elem (dropQuotes n) true)).flatten := by
      clear hname hnames hfuel
      induction k with
      | zero => exact .nil
      | succ k ih =>
        rw [List.replicate_succ, List.replicate_succ, List.flatten_cons]
        exact .line hs (has ns hns) ih
    have hcalls : ∀ n b, Act.elem n b ∈ (List.replicate k (Act.line s :: ns.map fun n => .elem (dropQuotes n) true)).flatten →
        DefinedAs N f.defs n (D n) := by
      intro n b hn
      obtain ⟨l, hl, hm⟩ := List.mem_flatten.mp hn
      rw [List.eq_of_mem_replicate hl] at hm
      rcases List.mem_cons.mp hm with hm | hm
      · cases hm
      · obtain ⟨m, hm1, hm2⟩ := List.mem_map.mp hm
        injection hm2 with hm2 _
        rw [← hm2]
        exact hdef m hm1
    have hlen : ((List.replicate k (Act.line s :: ns.map fun n => Act.elem (dropQuotes n) true)).flatten).length ≤ fuel := by
      have : ∀ (j : Nat) (l : List Act), ((List.replicate j l).flatten).length = j * l.length := by
        intro j l
        induction j with
        | zero => simp
        | succ j ih => rw [List.replicate_succ, List.flatten_cons, List.length_append, ih, Nat.succ_mul, Nat.add_comm]
      rw [this]
      simpa using hfuel
    obtain ⟨h, ids, h1, h2, h3⟩ := parse_acts N f L hL D name c text _ title hname htext hnames hall hcalls fuel hlen
    · refine ⟨h, ids, h1, h2, ?_⟩
      rw [h3]
      congr 1
      have helems : ∀ (l : List Str) (ents : List Ent) (st : Str → List Str),
          ABeam.acts ⟨ents ++ [.line s], st⟩ (l.map fun n => .elem (dropQuotes n) true) =
            ⟨ents ++ [.line s], fun x => if x = s then st s ++ l.map dropQuotes else st x⟩ := by
        intro l
        induction l with
        | nil =>
          intro ents st
          simp only [List.map_nil, List.append_nil, ABeam.acts, List.foldl_nil]
          congr 1
          funext x
          by_cases hx : x = s
          · rw [if_pos hx, hx]
          · rw [if_neg hx]
        | cons n l ih =>
          intro ents st
          show ABeam.acts (ABeam.act ⟨ents ++ [.line s], st⟩ (.elem (dropQuotes n) true)) _ = _
          have : ABeam.act ⟨ents ++ [.line s], st⟩ (.elem (dropQuotes n) true) =
              ⟨ents ++ [.line s], fun x => if x = s then st s ++ [dropQuotes n] else st x⟩ := by
            unfold ABeam.act
            simp only [List.getLast?_concat]
          rw [this, ih]
          congr 1
          funext x
          by_cases hx : x = s
          · simp [hx]
          · simp [hx]
      have hk : ∀ (j : Nat) (ents : List Ent) (st : Str → List Str),
          ABeam.acts ⟨ents, st⟩ (List.replicate j (Act.line s :: ns.map fun n => .elem (dropQuotes n) true)).flatten =
            ⟨ents ++ List.replicate j (.line s),
              fun x => if x = s then st s ++ (List.replicate j (ns.map dropQuotes)).flatten else st x⟩ := by
        intro j
        induction j with
        | zero =>
          intro ents st
          simp only [List.replicate_zero, List.flatten_nil, List.append_nil, ABeam.acts, List.foldl_nil]
          congr 1
          funext x
          by_cases hx : x = s
          · rw [if_pos hx, hx]
          · rw [if_neg hx]
        | succ j ih =>
          intro ents st
          rw [List.replicate_succ, List.flatten_cons, acts_append]
          have h0 : ABeam.acts ⟨ents, st⟩ (Act.line s :: ns.map fun n => .elem (dropQuotes n) true) =
              ABeam.acts ⟨ents ++ [.line s], st⟩ (ns.map fun n => .elem (dropQuotes n) true) := rfl
          rw [h0, helems, ih]
          congr 1
          · rw [List.append_assoc, List.replicate_succ]; rfl
          · funext x
            by_cases hx : x = s
            · simp [hx, List.replicate_succ]
            · simp [hx]
      rw [hk]
      simp only [List.nil_append]
      have hfl : ∀ (j : Nat) (st : Str → List Str), ABeam.flat ⟨List.replicate j (.line s), st⟩ =
          (List.replicate j (st s)).flatten := by
        intro j st
        induction j with
        | zero => rfl
        | succ j ih =>
          rw [List.replicate_succ, List.replicate_succ, List.flatten_cons, ← ih]
          rfl
      rw [hfl]
      simp only [if_true]
      have hmul : ∀ (j : Nat) (v : List Str), (List.replicate j (List.replicate k v).flatten).flatten =
          (List.replicate (j * k) v).flatten := by
        intro j v
        induction j with
        | zero => simp
        | succ j ih =>
          rw [List.replicate_succ, List.flatten_cons, ih, ← List.flatten_append, List.replicate_append_replicate]
          congr 2
          rw [Nat.succ_mul, Nat.add_comm]
      exact hmul k _

/-! ## Examples -/

/-- Lines of the examples. -/
def exLines : Dict (Option Str) Str :=
  [(some "top".toList, "(q,cell,q)".toList), (some "cell".toList, "(d,q)".toList),
    (some "two".toList, "(cell,cell)".toList)]

def exNames (n : Str) : Option (List Str) :=
  if n = "top".toList then some ["q".toList, "cell".toList, "q".toList]
  else if n = "cell".toList then some ["d".toList, "q".toList]
  else if n = "two".toList then some ["cell".toList, "cell".toList]
  else none

theorem ex_nameText (t : Str)
    (h : ∀ c ∈ t, isSpace c = false ∧ c ≠ ',' ∧ c ≠ ')' ∧ c ≠ '(' ∧ c.isDigit = false) (hne : t ≠ []) :
    NameText t := by
  obtain ⟨c, t, rfl⟩ := List.exists_cons_of_ne_nil hne
  refine ⟨⟨c, by simp, (h c (by simp)).1⟩, fun d hd => ?_, fun d hd => ?_⟩
  · have := h d hd; tauto
  · simp at hd; subst hd; exact (h c (by simp)).2.2.2.2

theorem ex_lines : LinesOf exLines exNames := by
  intro n
  have hn : ∀ t ∈ ["q".toList, "d".toList, "cell".toList], NameText t := by
    intro t ht
    have h : ∀ t ∈ ["q".toList, "d".toList, "cell".toList],
        (∀ c ∈ t, isSpace c = false ∧ c ≠ ',' ∧ c ≠ ')' ∧ c ≠ '(' ∧ c.isDigit = false) ∧ t ≠ [] := by decide
    exact ex_nameText t (h t ht).1 (h t ht).2
  have hq := hn "q".toList (by decide)
  have hd := hn "d".toList (by decide)
  have hc := hn "cell".toList (by decide)
  by_cases h1 : n = "top".toList
  · subst h1
    refine .inr ⟨'(', "q,cell,q)".toList, ["q".toList, "cell".toList, "q".toList], by decide, by decide,
      [.simple (.one "q".toList), .simple (.one "cell".toList), .simple (.one "q".toList)], ')', [], by simp, ?_,
      .inl rfl, by simp [Blank], by decide, by decide⟩
    intro i hi
    simp only [List.mem_cons, List.not_mem_nil, or_false] at hi
    rcases hi with rfl | rfl | rfl
    exacts [hq, hc, hq]
  by_cases h2 : n = "cell".toList
  · subst h2
    refine .inr ⟨'(', "d,q)".toList, ["d".toList, "q".toList], by decide, by decide,
      [.simple (.one "d".toList), .simple (.one "q".toList)], ')', [], by simp, ?_,
      .inl rfl, by simp [Blank], by decide, by decide⟩
    intro i hi
    simp only [List.mem_cons, List.not_mem_nil, or_false] at hi
    rcases hi with rfl | rfl
    exacts [hd, hq]
  by_cases h3 : n = "two".toList
  · subst h3
    refine .inr ⟨'(', "cell,cell)".toList, ["cell".toList, "cell".toList], by decide, by decide,
      [.simple (.one "cell".toList), .simple (.one "cell".toList)], ')', [], by simp, ?_,
      .inl rfl, by simp [Blank], by decide, by decide⟩
    intro i hi
    simp only [List.mem_cons, List.not_mem_nil, or_false] at hi
    rcases hi with rfl | rfl
    exacts [hc, hc]
  · refine .inl ⟨?_, by unfold exNames; rw [if_neg h1, if_neg h2, if_neg h3]⟩
    rw [dget_none_iff]
    intro p hp
    simp only [exLines, List.mem_cons, List.not_mem_nil, or_false] at hp
    rcases hp with rfl | rfl | rfl <;> (intro h; injection h with h; simp_all)

/-- Definitions of the examples. -/
def exDefs : List Str := ["q: quad\n".toList, "d: drift\n".toList]

theorem ex_defs (N : Nums R) (n : Str) (hn : n ∈ ["q".toList, "d".toList]) :
    DefinedAs N exDefs n (n, if n = "q".toList then "quad".toList else "drift".toList, []) := by
  simp only [List.mem_cons, List.not_mem_nil, or_false] at hn
  rcases hn with rfl | rfl
  · exact ⟨[], "q: quad\n".toList, ["d: drift\n".toList], "quad".toList, [], rfl,
      ⟨[], " quad\n".toList, by decide, by simp [Blank], by decide⟩, fun l hl => by
        rw [List.mem_singleton.mp hl, defines_iff]; decide,
      definition_bare_partial N "q".toList " quad".toList '\n' (by decide) (by decide) (by decide), by simp,
      congrArg (fun t => ("q".toList, t, ([] : Params R))) (show _ = strip (lower "quad".toList) by decide)⟩
  · exact ⟨["q: quad\n".toList], "d: drift\n".toList, [], "drift".toList, [], rfl,
      ⟨[], " drift\n".toList, by decide, by simp [Blank], by decide⟩, by simp,
      definition_bare_partial N "d".toList " drift".toList '\n' (by decide) (by decide) (by decide), by simp,
      congrArg (fun t => ("d".toList, t, ([] : Params R))) (show _ = strip (lower "drift".toList) by decide)⟩

/-- `top = (q,cell,q)`, `cell = (d,q)`: the elements are q, d, q, q. -/
example (N : Nums R) : ∃ h ids, parseLine N ⟨exDefs, exLines, "(q,cell,q)".toList⟩ "top".toList none 5 = some (.ok h) ∧
    Unfolds h (h.line 0).seq ids ∧
    ids.map (fun e => (h.elem e).name) = ["q".toList, "d".toList, "q".toList, "q".toList] := by
  obtain ⟨c, text, names, h1, h2, h3⟩ := (ex_lines "top".toList).resolve_left (fun h => absurd h.1 (by decide))
  have hn : names = ["q".toList, "cell".toList, "q".toList] := by
    have : exNames "top".toList = some ["q".toList, "cell".toList, "q".toList] := by decide
    rw [this] at h2; injection h2 with h2; exact h2.symm
  have he : Expands exNames names ["q".toList, "d".toList, "q".toList, "q".toList] ["cell".toList] := by
    rw [hn]
    exact .elem (by decide) (.line (its := ["d".toList, "q".toList]) (as := ["d".toList, "q".toList]) (us := []) (vs := [])
      (by decide) (.elem (n := "d".toList) (by decide) (.elem (n := "q".toList) (by decide) .nil))
      (.elem (n := "q".toList) (by decide) .nil))
  have ht : exLines.head?.map Prod.snd = some (c :: text) := by
    rw [← h1]; decide
  have ht' : "(q,cell,q)".toList = c :: text := by
    have : exLines.head?.map Prod.snd = some "(q,cell,q)".toList := by decide
    rw [this] at ht; injection ht
  obtain ⟨h, ids, a, b, d⟩ := sequence_partial N ⟨exDefs, exLines, "(q,cell,q)".toList⟩ exNames ex_lines
    (fun n => (n, if n = "q".toList then "quad".toList else "drift".toList, [])) "top".toList c text names _ _ none h2 ht' h3 he
    (by decide) (fun n hn => ex_defs N n (by
      have : ∀ n ∈ ["q".toList, "d".toList, "q".toList, "q".toList], n ∈ ["q".toList, "d".toList] := by decide
      exact this n hn)) 5 (by decide)
  refine ⟨h, ids, a, b, ?_⟩
  have := congrArg (List.map Prod.fst) d
  simpa [edata, Function.comp_def] using this

/-- `two = (cell,cell)` meets the hypotheses of `sequence_repeat_fails`: eight elements instead of
four. -/
example (N : Nums R) : ∃ h ids, parseLine N ⟨exDefs, exLines, "(cell,cell)".toList⟩ "two".toList none 6 = some (.ok h) ∧
    Unfolds h (h.line 0).seq ids ∧ ids.length = 8 := by
  obtain ⟨c, text, names, h1, h2, h3⟩ := (ex_lines "two".toList).resolve_left (fun h => absurd h.1 (by decide))
  have hn : names = List.replicate 2 "cell".toList := by
    have : exNames "two".toList = some (List.replicate 2 "cell".toList) := by decide
    rw [this] at h2; injection h2 with h2; exact h2.symm
  have ht' : "(cell,cell)".toList = c :: text := by
    have : dget exLines (some "two".toList) = some "(cell,cell)".toList := by decide
    rw [this] at h1; injection h1
  subst hn
  obtain ⟨_, h, ids, a, b, d⟩ := sequence_repeat_fails N ⟨exDefs, exLines, "(cell,cell)".toList⟩ exNames ex_lines
    (fun n => (n, if n = "q".toList then "quad".toList else "drift".toList, [])) "two".toList "cell".toList c text
    ["d".toList, "q".toList] 2 none h2 ht' h3 (by decide) (by decide) (fun n hn => ex_defs N _ (by
      have : ∀ n ∈ ["d".toList, "q".toList], dropQuotes n ∈ ["q".toList, "d".toList] := by decide
      exact this n hn)) 6 (by decide)
  refine ⟨h, ids, a, b, ?_⟩
  have := congrArg List.length d
  rw [List.length_map, List.length_map] at this
  rw [this]
  decide

end Verif.Lte
