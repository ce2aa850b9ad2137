import Mathlib.Tactic.FieldSimp
import Verif.Switch.Model
import Verif.Sdds.PropsWrite

/-!
# Lemmas about the elegant files of the switchyard
-/

namespace Verif.Switch

open Verif.Sdds

variable {K : Type} [Field K]

/-- The writer after all calls of `create_parameter` and `create_column`. -/
def fullWriter (num : Num K) (q : K) (ps : List (Part K)) : Writer where
  params := [{ name := "Charge".toList, type := "double".toList,
               data := some (.float (num.enc q)), units := "C".toList }]
  cols := [dcol num "x" "m" (ps.map (·.x)), dcol num "xp" "" (ps.map fun p => p.ux / p.pt),
    dcol num "y" "m" (ps.map (·.y)), dcol num "yp" "" (ps.map fun p => p.uy / p.pt),
    dcol num "t" "s" (ps.map fun p => p.ct / num.c), dcol num "p" "m$be$nc" (ps.map (·.pt))]

theorem elegantWriter_eq (num : Num K) (s : Species K) {q : K} (hq : s.totalCharge = some q) :
    elegantWriter num s = .ok (fullWriter num q s.coords) := by
  have h : "double".toList ∈ writeTypes := by decide
  have hp : ∀ (w : Writer) (p : WParam), p.type = "double".toList → p.fixed = none →
      w.createParameter p = .ok { w with params := w.params ++ [p] } := by
    intro w p h1 h2
    unfold Writer.createParameter
    rw [h1, if_neg (not_not.2 h), h2]
  have hc : ∀ (w : Writer) (n u : String) (d : List K),
      w.createColumn (dcol num n u d) = .ok { w with cols := w.cols ++ [dcol num n u d] } := by
    intro w n u d
    unfold Writer.createColumn
    exact if_neg (not_not.2 h)
  unfold elegantWriter
  simp only [hq, Option.map_some]
  rw [hp _ _ rfl rfl]
  simp only [bind, Except.bind, hc]
  rfl

theorem dcol_has (num : Num K) (n u : String) (d : List K) : (dcol num n u d).Has .double (adType .double) := by
  refine ⟨rfl, (show numType "double".toList = some .double by decide), ?_⟩
  intro x hx
  obtain ⟨v, _, rfl⟩ := List.mem_map.1 hx
  exact (num.enc v).isLt

theorem fullWriter_ok (ft : FloatText) (num : Num K) (q : K) (ps : List (Part K)) (h : ps.length < 2147483648) :
    (fullWriter num q ps).Ok ft .double ps.length where
  params := by
    change ("row_counts".toList :: ["Charge".toList]).Nodup
    decide
  cols := by
    change ["x".toList, "xp".toList, "y".toList, "yp".toList, "t".toList, "p".toList].Nodup
    decide
  resParams := by
    intro p hp
    simp only [fullWriter, List.mem_singleton] at hp
    subst hp
    show "Charge".toList ≠ recLenName
    decide
  resCols := by
    intro c hc
    simp only [fullWriter, List.mem_cons, List.not_mem_nil, or_false] at hc
    rcases hc with rfl | rfl | rfl | rfl | rfl | rfl <;> exact of_decide_eq_true rfl
  header := by
    refine ⟨?_, ?_, ?_⟩
    · intro p hp
      simp only [fullWriter, List.mem_singleton] at hp
      subst hp
      refine ⟨?_, ?_, ?_, ?_, ?_, ?_⟩
      · show CleanWord "Charge".toList
        decide +kernel
      · show "double".toList ∈ writeTypes
        decide
      · show CleanText "C".toList
        decide +kernel
      all_goals
        show CleanText []
        decide +kernel
    · intro c hc
      simp only [fullWriter, List.mem_cons, List.not_mem_nil, or_false] at hc
      have hd : "double".toList ∈ writeTypes := by decide
      have he : CleanText [] := by decide +kernel
      rcases hc with rfl | rfl | rfl | rfl | rfl | rfl
      · exact ⟨(show CleanWord "x".toList by decide +kernel), hd,
          (show CleanText "m".toList by decide +kernel), he, he, he, rfl⟩
      · exact ⟨(show CleanWord "xp".toList by decide +kernel), hd, he, he, he, he, rfl⟩
      · exact ⟨(show CleanWord "y".toList by decide +kernel), hd,
          (show CleanText "m".toList by decide +kernel), he, he, he, rfl⟩
      · exact ⟨(show CleanWord "yp".toList by decide +kernel), hd, he, he, he, he, rfl⟩
      · exact ⟨(show CleanWord "t".toList by decide +kernel), hd,
          (show CleanText "s".toList by decide +kernel), he, he, he, rfl⟩
      · exact ⟨(show CleanWord "p".toList by decide +kernel), hd,
          (show CleanText "m$be$nc".toList by decide +kernel), he, he, he, rfl⟩
    · intro p hp v hv
      simp only [fullWriter, List.mem_singleton] at hp
      subst hp
      cases hv
  storable := by
    intro p hp
    simp only [fullWriter, List.mem_singleton] at hp
    subst hp
    exact Or.inl ⟨.float (num.enc q), rfl, rfl, by intro f hf; cases hf⟩
  has := by
    intro c hc
    simp only [fullWriter, List.mem_cons, List.not_mem_nil, or_false] at hc
    rcases hc with rfl | rfl | rfl | rfl | rfl | rfl <;> exact dcol_has ..
  lengths := by
    intro c hc
    simp only [fullWriter, List.mem_cons, List.not_mem_nil, or_false] at hc
    rcases hc with rfl | rfl | rfl | rfl | rfl | rfl <;> simp [dcol]
  noCols := by intro hc; cases hc
  short := h

/-- The numbers stored for a particle, as the reader sees them. -/
def storedRow (num : Num K) (p : Part K) : Record :=
  [("x".toList, .num .double (num.enc p.x).toNat), ("xp".toList, .num .double (num.enc (p.ux / p.pt)).toNat),
   ("y".toList, .num .double (num.enc p.y).toNat), ("yp".toList, .num .double (num.enc (p.uy / p.pt)).toNat),
   ("t".toList, .num .double (num.enc (p.ct / num.c)).toNat), ("p".toList, .num .double (num.enc p.pt).toNat)]

theorem range_map_getD {α β : Type} (d : α) (f : α → β) (l : List α) :
    (List.range l.length).map (fun i => f (l.getD i d)) = l.map f := by
  apply List.ext_getElem
  · simp
  · intro i h1 h2
    have hi : i < l.length := by simpa using h2
    simp [List.getD, List.getElem?_eq_getElem hi]

theorem dcol_getD (num : Num K) (n u : String) (f : Part K → K) (ps : List (Part K)) (d : Part K) {i : Nat}
    (hi : i < ps.length) :
    (dcol num n u (ps.map f)).data.getD i 0 = (num.enc (f (ps.getD i d))).toNat := by
  simp [dcol, List.getD, List.getElem?_eq_getElem hi]

theorem savedRows_full (num : Num K) (q : K) (ps : List (Part K)) :
    savedRows (fullWriter num q ps) .double ps.length = ps.map (storedRow num) := by
  let d : Part K := ⟨0, 0, 0, 0, 0, 0⟩
  rw [← range_map_getD d (storedRow num) ps]
  apply List.map_congr_left
  intro i hi
  have hi' : i < ps.length := List.mem_range.1 hi
  simp only [fullWriter, List.map_cons, List.map_nil]
  rw [dcol_getD num "x" "m" _ ps d hi', dcol_getD num "xp" "" _ ps d hi', dcol_getD num "y" "m" _ ps d hi',
    dcol_getD num "yp" "" _ ps d hi', dcol_getD num "t" "s" _ ps d hi', dcol_getD num "p" "m$be$nc" _ ps d hi']
  rfl

theorem mapM_ok {α β : Type} (f : α → Except PyErr β) (g : α → β) (l : List α) (h : ∀ a ∈ l, f a = .ok (g a)) :
    l.mapM f = .ok (l.map g) := by
  induction l with
  | nil => rfl
  | cons a l ih =>
    rw [List.mapM_cons, h a (by simp), ih fun b hb => h b (by simp [hb])]
    rfl

/-- What comes back for a particle. -/
def storedPart (num : Num K) (p : Part K) : Part K :=
  let d v := num.dec (num.enc v)
  ⟨d p.x, d (p.ux / p.pt) * d p.pt, d p.y, d (p.uy / p.pt) * d p.pt, d (p.ct / num.c) * num.c, d p.pt⟩

theorem particles_map (num : Num K) {α : Type} (l : List α) (f1 f2 f3 f4 f5 f6 : α → K) :
    particles num (l.map f1) (l.map f2) (l.map f3) (l.map f4) (l.map f5) (l.map f6) =
      l.map fun a => ⟨f1 a, f2 a * f6 a, f3 a, f4 a * f6 a, f5 a * num.c, f6 a⟩ := by
  induction l with
  | nil => rfl
  | cons a l ih => simp only [List.map_cons, particles, ih]

theorem fieldOf_row (num : Num K) (p : Part K) :
    fieldOf num "x".toList (storedRow num p) = .ok (num.dec (num.enc p.x)) ∧
    fieldOf num "xp".toList (storedRow num p) = .ok (num.dec (num.enc (p.ux / p.pt))) ∧
    fieldOf num "y".toList (storedRow num p) = .ok (num.dec (num.enc p.y)) ∧
    fieldOf num "yp".toList (storedRow num p) = .ok (num.dec (num.enc (p.uy / p.pt))) ∧
    fieldOf num "t".toList (storedRow num p) = .ok (num.dec (num.enc (p.ct / num.c))) ∧
    fieldOf num "p".toList (storedRow num p) = .ok (num.dec (num.enc p.pt)) := by
  have hb : ∀ b : F64, BitVec.ofNat 64 b.toNat = b := fun b => by simp
  refine ⟨?_, ?_, ?_, ?_, ?_, ?_⟩ <;>
    simp (decide := true) only [fieldOf, storedRow, List.find?_cons, decide_true, decide_false, hb]

theorem squeeze_page {rows : List Record} (h : 2 ≤ rows.length) : squeeze [rows] = .rows rows := by
  match rows with
  | [] => simp at h
  | [_] => simp at h
  | _ :: _ :: _ => rfl

end Verif.Switch
