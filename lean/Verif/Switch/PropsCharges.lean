import Verif.Switch.Charges
import Verif.Switch.PropsDatasets

/-!
# C134: elegant files whose pages have one row
-/

namespace Verif.Switch

open Verif.Sdds

variable {K : Type} [Field K]

/-- A field of a record is a double with the given bits. -/
def HasDouble (r : Record) (name : String) (b : Nat) : Prop := r.find? (fun f => f.1 = name.toList) = some (name.toList, .num .double b)

omit [Field K] in
theorem fieldOf_double (num : Num K) {r : Record} {name : String} {b : Nat} (h : HasDouble r name b) :
    fieldOf num name.toList r = .ok (num.dec (BitVec.ofNat 64 b)) := by
  rw [fieldOf, h]

theorem mapM_pages {α β : Type} {f : α → Except PyErr β} {g : α → β} {l : List α} (h : ∀ x ∈ l, f x = .ok (g x)) : l.mapM f = .ok (l.map g) := by
  induction l with
  | nil => rfl
  | cons x l ih =>
    rw [List.mapM_cons, h x (by simp), ih fun y hy => h y (by simp [hy])]
    rfl

theorem flatten_singletons {α : Type} (l : List α) : (l.map fun x => [x]).flatten = l := by
  induction l with
  | nil => rfl
  | cons x l ih => simp [ih]

theorem squeeze_singletons {rows : List Record} (h : 2 ≤ rows.length) : squeeze (rows.map fun r => [r]) = .rows rows := by
  match rows, h with
  | r :: s :: rs, _ =>
    rw [List.map_cons, List.map_cons, squeeze]
    · rw [if_pos (by simp), List.flatten_cons, List.flatten_cons, flatten_singletons]
      rfl
    · simp
    · simp
    · simp

/-- A row of a page: the record with its six doubles, and the charge of the page. -/
structure Page where
  params : Record
  row : Record
  x : Nat
  xp : Nat
  y : Nat
  yp : Nat
  t : Nat
  p : Nat
  charge : Nat

/-- The doubles are those of the file. -/
def Page.Ok (g : Page) : Prop :=
  HasDouble g.row "x" g.x ∧ HasDouble g.row "xp" g.xp ∧ HasDouble g.row "y" g.y ∧ HasDouble g.row "yp" g.yp ∧ HasDouble g.row "t" g.t ∧
    HasDouble g.row "p" g.p ∧ HasDouble g.params "Charge" g.charge

theorem particles_pages (num : Num K) (gs : List Page) (x xp y yp t p : Page → K) :
    particles num (gs.map x) (gs.map xp) (gs.map y) (gs.map yp) (gs.map t) (gs.map p) =
      gs.map fun g => ⟨x g, xp g * p g, y g, yp g * p g, t g * num.c, p g⟩ := by
  induction gs with
  | nil => rfl
  | cons g gs ih => simp only [List.map_cons, particles, ih]

/-- **C134, pages of one row.** A file of two or more pages with one row each is read with the particles of all pages in order, and the total
charge is the array of the charges of the pages. -/
theorem elegant_single_rows_partial (ft : FloatText) (num : Num K) {fuel : Nat} {file : Bytes} {r : Reader} {pg : Pages}
    (ho : openSdds ft fuel true 100 file = some (.ok r)) (ha : r.ascii = false) (hr : r.read fuel none = some (.ok pg)) (hc : r.cols ≠ [])
    {gs : List Page} (h2 : 2 ≤ gs.length) (hcols : pg.cols = gs.map fun g => [g.row]) (hpar : pg.params = gs.map fun g => [g.params])
    (hg : ∀ g ∈ gs, g.Ok) :
    readElegantAll ft num fuel file = some (.ok
      (gs.map fun g => ⟨num.dec (.ofNat 64 g.x), num.dec (.ofNat 64 g.xp) * num.dec (.ofNat 64 g.p), num.dec (.ofNat 64 g.y),
        num.dec (.ofNat 64 g.yp) * num.dec (.ofNat 64 g.p), num.dec (.ofNat 64 g.t) * num.c, num.dec (.ofNat 64 g.p)⟩,
       .many (gs.map fun g => num.dec (.ofNat 64 g.charge)))) := by
  have hsq : squeeze pg.cols = .rows (gs.map (·.row)) := by
    rw [hcols, ← squeeze_singletons (rows := gs.map (·.row)) (by simpa using h2), List.map_map]
    rfl
  have hq : chargesOf num pg.params = .ok (.many (gs.map fun g => num.dec (.ofNat 64 g.charge))) := by
    have hm : (gs.map fun g => [g.params]).mapM (fun pg => fieldOf num "Charge".toList (pg.headD [])) = .ok (gs.map fun g => num.dec (.ofNat 64 g.charge)) := by
      rw [List.mapM_map]
      exact mapM_pages fun g h => fieldOf_double num (hg g h).2.2.2.2.2.2
    rw [hpar]
    match gs, h2, hm with
    | g1 :: g2 :: gs, _, hm =>
      rw [List.map_cons, List.map_cons] at hm ⊢
      rw [chargesOf]
      · rw [hm]
      · simp
      · simp
  have hcol : ∀ (name : String) (b : Page → Nat), (∀ g ∈ gs, HasDouble g.row name (b g)) →
      column num (.rows (gs.map (·.row))) name.toList = .ok (gs.map fun g => num.dec (.ofNat 64 (b g))) := fun name b h => by
    rw [column, List.mapM_map]
    exact mapM_pages fun g hg' => fieldOf_double num (h g hg')
  rw [readElegantAll, ho]
  simp only [ha, hr, hsq, hq, if_neg hc]
  rw [hcol "x" (·.x) fun g h => (hg g h).1, hcol "xp" (·.xp) fun g h => (hg g h).2.1, hcol "y" (·.y) fun g h => (hg g h).2.2.1,
    hcol "yp" (·.yp) fun g h => (hg g h).2.2.2.1, hcol "t" (·.t) fun g h => (hg g h).2.2.2.2.1, hcol "p" (·.p) fun g h => (hg g h).2.2.2.2.2.1]
  show some (Except.ok (particles num _ _ _ _ _ _, _)) = _
  rw [particles_pages]

/-- A file with two pages of the first particle of `exSpecies`. -/
def exOnes : Bytes :=
  let f := (writeElegant exEnv exNum { exSpecies with coords := exSpecies.coords.take 1 }).1
  match openSdds exText 10 true 100 f with
  | some (.ok r) => f ++ f.drop r.headerEnd
  | _ => []

/-- The pages of a reader. -/
def pagesOf (pg : Pages) : List Page :=
  let bits (r : Record) (name : String) : Nat := match r.find? (fun f => f.1 = name.toList) with
    | some (_, .num .double b) => b
    | _ => 0
  List.zipWith (fun q c => ⟨q.headD [], c.headD [], bits (c.headD []) "x", bits (c.headD []) "xp", bits (c.headD []) "y", bits (c.headD []) "yp",
    bits (c.headD []) "t", bits (c.headD []) "p", bits (q.headD []) "Charge"⟩) pg.params pg.cols

instance (r : Record) (name : String) (b : Nat) : Decidable (HasDouble r name b) := inferInstanceAs (Decidable (_ = _))

instance (g : Page) : Decidable g.Ok := inferInstanceAs (Decidable (_ ∧ _))

example : (match openSdds exText 10 true 100 exOnes with
    | some (.ok r) => match r.read 10 none with
      | some (.ok pg) => decide (r.ascii = false ∧ r.cols ≠ [] ∧ 2 ≤ (pagesOf pg).length ∧ pg.cols = (pagesOf pg).map (fun g => [g.row]) ∧
          pg.params = (pagesOf pg).map (fun g => [g.params]) ∧ ∀ g ∈ pagesOf pg, g.Ok)
      | _ => false
    | _ => false) = true := by decide +kernel

example : readElegantAll exText exNum 10 exOnes = some (.ok (exSpecies.coords.take 1 ++ exSpecies.coords.take 1, .many [7, 7])) := by decide +kernel

theorem chargesOf_one (num : Num K) (pages : List (List Record)) {q : K} (h : chargeOf num pages = .ok (some q)) :
    chargesOf num pages = .ok (.one q) := by
  unfold chargeOf at h
  split at h
  · cases h
  · next r =>
    rw [chargesOf]
    split at h
    · next e => rw [e]; simp_all
    · cases h
    · next e => rw [e]; simp_all
  · next pg tl hne =>
    rw [chargesOf]
    · split at h
      · next e =>
        rw [List.mapM_cons, e]
        simp_all [bind, Except.bind]
      · cases h
      · cases h
    · simp
    · intro r e; cases e; exact hne r rfl rfl

/-- The two models agree on files with one charge. -/
theorem readElegantAll_one (ft : FloatText) (num : Num K) (fuel : Nat) (file : Bytes) (ps : List (Part K)) (q : K)
    (h : readElegant ft num fuel file = some (.ok ⟨ps, -1, 511000, some q⟩)) : readElegantAll ft num fuel file = some (.ok (ps, .one q)) := by
  unfold readElegant at h
  unfold readElegantAll
  split at h
  · cases h
  · cases h
  · next r ho =>
    rw [ho]
    simp only
    by_cases ha : r.ascii = true
    · rw [if_pos ha] at h
      simp at h
    · rw [if_neg ha] at h ⊢
      split at h
      · cases h
      · cases h
      · next pg hr =>
        rw [hr]
        simp only
        by_cases hc : r.cols = []
        · simp only [hc, if_true, bind, Except.bind] at h
          simp at h
        · simp only [if_neg hc] at h ⊢
          cases hq : chargeOf num pg.params with
          | error e => simp [hq, bind, Except.bind] at h
          | ok o =>
            simp only [hq, bind, Except.bind] at h ⊢
            split at h
            · simp at h
            next xs hxs =>
            split at h
            · simp at h
            next xps hxps =>
            split at h
            · simp at h
            next ys hys =>
            split at h
            · simp at h
            next yps hyps =>
            split at h
            · simp at h
            next ts hts =>
            split at h
            · simp at h
            next pz hpz =>
            cases o with
            | none => simp at h
            | some q' =>
              simp only [Option.some.injEq, Except.ok.injEq, Species.mk.injEq, true_and] at h
              rw [chargesOf_one num _ hq]
              simp only [h.1, h.2]

end Verif.Switch
