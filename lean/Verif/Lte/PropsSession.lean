import Verif.Lte.Session
import Verif.Lte.PropsFile
import Verif.Lattice.PropsBeamline

/-!
# Properties C131 and C132: parsers that are used again
-/

namespace Verif.Lte

open Verif.Lattice

variable {R : Type}

/-! ## One call -/

theorem findFrom_new (name : Str) (defs : List Str) : findFrom name [] [] defs = findLoop name defs := by
  induction defs with
  | nil => rfl
  | cons line rest ih =>
    unfold findFrom findLoop
    rw [ih]

theorem findFrom_defs (name : Str) (lines : Dict (Option Str) Str) (text : Str) (defs : List Str) :
    (findFrom name lines text defs).defs = defs.filter fun l => !hasSub "line=(".toList l := by
  induction defs with
  | nil => rfl
  | cons line rest ih =>
    unfold findFrom
    rw [List.filter_cons]
    cases h : hasSub "line=(".toList line
    · simp only [Bool.not_false, if_true, Bool.false_eq_true, if_false, ih]
    · simp only [Bool.not_true, if_true, Bool.false_eq_true, if_false, ih]

theorem findFrom_none (name : Str) (lines : Dict (Option Str) Str) (text : Str) {defs : List Str}
    (h : ∀ l ∈ defs, hasSub "line=(".toList l = false) : findFrom name lines text defs = ⟨defs, lines, text⟩ := by
  induction defs with
  | nil => rfl
  | cons line rest ih =>
    unfold findFrom
    rw [ih fun l hl => h l (by simp [hl]), h line (by simp)]
    rfl

/-- The first call of a new parser is the parser of `Verif.Lte.Parser`. -/
theorem new_call (N : Nums R) (file : List Str) (name : Str) (fuel : Nat) :
    (match newSession N file name with
      | .error e => some (.error e)
      | .ok p => (p.call N fuel).map fun r => r.map Session.heap) = parseFile N file name fuel := by
  unfold newSession parseFile
  cases sanitize N file with
  | error e => rfl
  | ok c =>
    simp only
    unfold Session.call Session.find findBeamlines parseLine Session.parse
    by_cases h : lower name = []
    · simp only [h, if_true, dget, List.find?_nil, Option.map_none, Option.isSome_none, Bool.false_eq_true, if_false]
      rfl
    · simp only [h, if_false, findFrom_new]
      by_cases h2 : (dget (findLoop (lower name) (replaceVars N c)).lines (some (lower name))).isSome
      · rw [if_pos h2, if_pos h2]
        cases parseLoop N (findLoop (lower name) (replaceVars N c)).defs (findLoop (lower name) (replaceVars N c)).lines fuel
            ⟨(findLoop (lower name) (replaceVars N c)).text.drop 1, [], false, none, Heap.init (some name)⟩ with
        | none => rfl
        | some r => cases r <;> rfl
      · rw [if_neg h2, if_neg h2]
        rfl

/-! ## Further calls -/

/-- No lines are left among the definitions. -/
def Settled (p : Session R) : Prop := ∀ l ∈ p.defs, hasSub "line=(".toList l = false

theorem find_settles {p : Session R} (h : p.name ≠ []) : Settled p.find := by
  unfold Settled Session.find
  rw [if_neg h]
  simp only [findFrom_defs]
  intro l hl
  simpa using (List.mem_filter.mp hl).2

theorem find_settled {p : Session R} (h : Settled p) : p.find = p := by
  unfold Session.find
  by_cases hn : p.name = []
  · rw [if_pos hn]
  · rw [if_neg hn, findFrom_none _ _ _ h]

theorem parse_keeps {N : Nums R} {fuel : Nat} {p q : Session R} (h : p.parse N fuel = some (.ok q)) :
    q.defs = p.defs ∧ q.lines = p.lines ∧ q.text = p.text ∧ q.name = p.name := by
  unfold Session.parse at h
  by_cases h2 : (dget p.lines (some p.name)).isSome
  · rw [if_pos h2] at h
    split at h
    · cases h
    · cases h
    · injection h with h
      injection h with h
      rw [← h]
      exact ⟨rfl, rfl, rfl, rfl⟩
  · rw [if_neg h2] at h
    cases h

/-- **C131 fails.** Once a parser was called, the name chosen by `set_beamline` does not matter: whatever lines of the file are chosen, the text of the
line of the first call is parsed and its elements are added to the same beamline. -/
theorem set_ignored (N : Nums R) (fuel : Nat) {p0 p : Session R} (hn : p0.name ≠ []) (hc : p0.call N fuel = some (.ok p)) (n : Str) :
    (p.setBeamline n).call N fuel =
      if (dget p.lines (some n)).isSome then
        (p.call N fuel).map fun r => r.map fun q => q.setBeamline n
      else some (.error .assertionError) := by
  have hk := parse_keeps hc
  have hs : Settled p := by
    unfold Settled
    rw [hk.1]
    exact find_settles hn
  have hs2 : Settled (p.setBeamline n) := hs
  have hin : (dget p.lines (some p.name)).isSome := by
    have h := hc
    unfold Session.call Session.parse at h
    by_cases h2 : (dget p0.find.lines (some p0.find.name)).isSome
    · rw [hk.2.1, hk.2.2.2]
      exact h2
    · rw [if_neg h2] at h
      cases h
  unfold Session.call
  rw [find_settled hs, find_settled hs2]
  unfold Session.parse
  by_cases h2 : (dget p.lines (some n)).isSome
  · simp only [Session.setBeamline, h2, hin, if_true]
    cases parseLoop N p.defs p.lines fuel ⟨p.text.drop 1, [], false, none, p.heap⟩ with
    | none => rfl
    | some r => cases r <;> rfl
  · simp only [Session.setBeamline, h2, Bool.false_eq_true, if_false]

/-! ## The title -/

theorem addElement_title (h : Heap R) (n type : Str) (ps : List (Str × PVal R)) (sub : Bool) (k : Nat) :
    ((h.addElement 0 n type ps sub).1.line k).name = (h.line k).name := by
  have h1 : ∀ h1 e, h.useElement 0 n type ps = .ok (h1, e) → (h1.line k).name = (h.line k).name := by
    intro h1 e hu
    unfold Heap.useElement at hu
    split at hu
    · injection hu with hu
      injection hu with hu _
      rw [hu]
    · cases hx : newElem n type ps with
      | error e => rw [hx] at hu; cases hu
      | ok x =>
        rw [hx] at hu
        injection hu with hu
        injection hu with hu _
        rw [← hu]
        unfold Heap.setLine
        simp only
        by_cases hk : k = 0
        · rw [if_pos hk, hk]
          rfl
        · rw [if_neg hk]
          rfl
  have hap : ∀ (g : Heap R) l i, ((g.append l i).line k).name = (g.line k).name := by
    intro g l i
    unfold Heap.append Heap.setLine
    simp only
    by_cases hk : k = l
    · rw [if_pos hk, hk]
    · rw [if_neg hk]
  unfold Heap.addElement
  cases hu : h.useElement 0 n type ps with
  | error e => rfl
  | ok r =>
    obtain ⟨g, e⟩ := r
    simp only
    cases sub
    · rw [if_neg (by simp), hap]
      exact h1 g e hu
    · rw [if_pos rfl]
      split
      · exact h1 g e hu
      · exact h1 g e hu
      · rw [hap]
        exact h1 g e hu

theorem addElement_nLine (h : Heap R) (n type : Str) (ps : List (Str × PVal R)) (sub : Bool) :
    (h.addElement 0 n type ps sub).1.nLine = h.nLine := by
  have h1 : ∀ h1 e, h.useElement 0 n type ps = .ok (h1, e) → h1.nLine = h.nLine := by
    intro h1 e hu
    unfold Heap.useElement at hu
    split at hu
    · injection hu with hu
      injection hu with hu _
      rw [hu]
    · cases hx : newElem n type ps with
      | error e => rw [hx] at hu; cases hu
      | ok x =>
        rw [hx] at hu
        injection hu with hu
        injection hu with hu _
        rw [← hu]
        rfl
  unfold Heap.addElement
  cases hu : h.useElement 0 n type ps with
  | error e => rfl
  | ok r =>
    obtain ⟨g, e⟩ := r
    simp only
    cases sub
    · rw [if_neg (by simp)]
      exact h1 g e hu
    · rw [if_pos rfl]
      split <;> exact h1 g e hu

theorem addBeamline_title (h : Heap R) (n : Option Str) (h0 : 0 < h.nLine) :
    ((h.addBeamline 0 n).line 0).name = (h.line 0).name ∧ 0 < (h.addBeamline 0 n).nLine := by
  have hset : ∀ (g : Heap R) l (x : Line), x.name = (g.line l).name → ((g.setLine l x).line 0).name = (g.line 0).name := by
    intro g l x hx
    unfold Heap.setLine
    simp only
    by_cases hk : 0 = l
    · rw [if_pos hk, hx, hk]
    · rw [if_neg hk]
  have hu : ((h.useLine 0 n).1.line 0).name = (h.line 0).name ∧ 0 < (h.useLine 0 n).1.nLine := by
    unfold Heap.useLine
    split
    · exact ⟨rfl, h0⟩
    · refine ⟨?_, by show 0 < h.nLine + 1; omega⟩
      simp only
      refine (hset _ _ _ (by rfl)).trans ?_
      unfold Heap.setLine
      simp only
      rw [if_neg (by omega)]
  unfold Heap.addBeamline
  simp only
  refine ⟨?_, hu.2⟩
  refine (hset _ _ _ (by rfl)).trans ?_
  unfold Heap.append
  refine (hset _ _ _ (by rfl)).trans ?_
  exact hu.1

theorem afterElement_heap (st : PState R) (bs : Str) (e : Nat) (h : Heap R) : (afterElement st bs e h).heap = h := by
  unfold afterElement
  simp only
  repeat' split
  all_goals rfl

theorem parseStep_title {N : Nums R} {defs : List Str} {lines : Dict (Option Str) Str} {st st' : PState R} (h0 : 0 < st.heap.nLine)
    (h : parseStep N defs lines st = .ok st') : (st'.heap.line 0).name = (st.heap.line 0).name ∧ 0 < st'.heap.nLine := by
  unfold parseStep at h
  split at h
  · cases h
  · split at h
    · cases h
    · simp only at h
      split at h
      · injection h with h
        rw [← h]
        exact addBeamline_title _ _ h0
      · split at h
        · cases h
        · split at h
          · cases h
          · split at h
            · cases h
            · rename_i g hg
              injection h with h
              have e1 := congrArg (fun r => (r.1.line 0).name) hg
              have e2 := congrArg (fun r => r.1.nLine) hg
              simp only [addElement_title, addElement_nLine] at e1 e2
              have e3 : st'.heap = g := by
                rw [← h, afterElement_heap]
              rw [e3]
              exact ⟨e1.symm, by rw [← e2]; exact h0⟩

theorem parseLoop_title {N : Nums R} {defs : List Str} {lines : Dict (Option Str) Str} :
    ∀ (fuel : Nat) {st : PState R} {h : Heap R}, 0 < st.heap.nLine → parseLoop N defs lines fuel st = some (.ok h) →
      (h.line 0).name = (st.heap.line 0).name ∧ 0 < h.nLine := by
  intro fuel
  induction fuel with
  | zero =>
    intro st h h0 hp
    unfold parseLoop at hp
    split at hp
    · injection hp with hp
      injection hp with hp
      rw [← hp]
      exact ⟨rfl, h0⟩
    · cases hp
  | succ fuel ih =>
    intro st h h0 hp
    unfold parseLoop at hp
    split at hp
    · injection hp with hp
      injection hp with hp
      rw [← hp]
      exact ⟨rfl, h0⟩
    · split at hp
      · rename_i st' hst
        obtain ⟨a, b⟩ := parseStep_title h0 hst
        obtain ⟨c, d⟩ := ih b hp
        exact ⟨c.trans a, d⟩
      · cases hp

theorem call_title {N : Nums R} {fuel : Nat} {p q : Session R} (h0 : 0 < p.heap.nLine) (h : p.call N fuel = some (.ok q)) :
    (q.heap.line 0).name = (p.heap.line 0).name ∧ 0 < q.heap.nLine := by
  have hf : p.find.heap = p.heap := by
    unfold Session.find
    split <;> rfl
  unfold Session.call Session.parse at h
  split at h
  · split at h
    · cases h
    · cases h
    · rename_i g hg
      injection h with h
      injection h with h
      rw [← h]
      have := parseLoop_title fuel (by simpa [hf] using h0) hg
      simpa [hf] using this
  · cases h

theorem run_title {N : Nums R} {fuel : Nat} : ∀ (ops : List SessionOp) {p q : Session R}, 0 < p.heap.nLine →
    p.run N fuel ops = some (.ok q) → (q.heap.line 0).name = (p.heap.line 0).name := by
  intro ops
  induction ops with
  | nil =>
    intro p q _ h
    injection h with h
    injection h with h
    rw [h]
  | cons op ops ih =>
    intro p q h0 h
    cases op with
    | set n => exact ih (p := p.setBeamline n) h0 h
    | call =>
      unfold Session.run at h
      split at h
      · rename_i p' hp
        obtain ⟨a, b⟩ := call_title h0 hp
        exact (ih b h).trans a
      · cases h
      · cases h

/-- **C131 fails.** Whatever line is chosen, the beamline has the name that was given when the parser was made. -/
theorem session_title {N : Nums R} {fuel : Nat} {file : List Str} {name : Str} {p q : Session R} (hp : newSession N file name = .ok p)
    {ops : List SessionOp} (h : p.run N fuel ops = some (.ok q)) : (q.heap.line 0).name = some name := by
  unfold newSession at hp
  split at hp
  · cases hp
  · injection hp with hp
    rw [run_title ops (p := p) (by rw [← hp]; exact Nat.one_pos) h, ← hp]
    rfl

/-! ## The elements -/

theorem LinesOf.ne {lines : Dict (Option Str) Str} {L : Str → Option (List Str)} (hL : LinesOf lines L) :
    ∀ s its, L s = some its → its ≠ [] := by
  intro s its hs
  rcases hL s with ⟨_, h2⟩ | ⟨c, t, ns, _, h2, h3⟩
  · rw [h2] at hs
    cases hs
  · rw [h2] at hs
    injection hs with hs
    rw [← hs]
    exact textOf_ne h3

theorem LinesOf.mem {lines : Dict (Option Str) Str} {L : Str → Option (List Str)} (hL : LinesOf lines L) (n : Str) :
    (dget lines (some n)).isSome = (L n).isSome := by
  rcases hL n with ⟨h1, h2⟩ | ⟨c, t, ns, h1, h2, _⟩
  · rw [h1, h2]
    rfl
  · rw [h1, h2]
    rfl

/-- One call on a beamline that has entries already. -/
theorem parse_rep (N : Nums R) {p : Session R} {L : Str → Option (List Str)} (hL : LinesOf p.lines L) (D : Str → Str × Str × Params R) {c : Char}
    {text : Str} {names : List Str} (hin : (L p.name).isSome = true) (htext : p.text = c :: text) (hnames : TextOf names text) (hne : names ≠ [])
    {as : List Act} (ha : Acts L false names as) (hdef : ∀ n b, Act.elem n b ∈ as → DefinedAs N p.defs n (D n)) {fuel : Nat} (hfuel : as.length ≤ fuel)
    {A : ABeam} (hr : Rep D p.heap A) : ∃ h', p.parse N fuel = some (.ok { p with heap := h' }) ∧ Rep D h' (A.acts as) := by
  obtain ⟨h', hr', hrun⟩ := acts_run N p.defs L D hL.ne ha p.heap A [] hne hr (by intro h; cases h) hdef
  refine ⟨h', ?_, hr'⟩
  unfold Session.parse
  rw [if_pos (by rw [hL.mem, hin]), htext]
  rw [loop_rel N p.defs p.lines L hL fuel _ ⟨names, [], false, p.heap⟩ ⟨.inl hnames, .nil, rfl, rfl⟩]
  obtain ⟨k, rfl⟩ : ∃ k, fuel = as.length + k := ⟨fuel - as.length, by omega⟩
  rw [hrun k]
  rfl

/-- The history that sets the given names and calls the parser after each of them. -/
def setCalls (ns : List Str) : List SessionOp := ns.flatMap fun n => [.set n, .call]

theorem calls_rep (N : Nums R) {L : Str → Option (List Str)} (D : Str → Str × Str × Params R) {c : Char} {text : Str} {names : List Str}
    (hnames : TextOf names text) (hne : names ≠ []) {as : List Act} (ha : Acts L false names as) {fuel : Nat} (hfuel : as.length ≤ fuel) :
    ∀ (ns : List Str) {p : Session R} {A : ABeam}, LinesOf p.lines L → Settled p → (∀ n ∈ ns, (L n).isSome = true) → p.text = c :: text →
      (∀ n b, Act.elem n b ∈ as → DefinedAs N p.defs n (D n)) → Rep D p.heap A →
      ∃ q, p.run N fuel (setCalls ns) = some (.ok q) ∧ Rep D q.heap (A.acts (List.replicate ns.length as).flatten) := by
  intro ns
  induction ns with
  | nil =>
    intro p A _ _ _ _ _ hr
    exact ⟨p, rfl, hr⟩
  | cons n ns ih =>
    intro p A hL hs hin htext hdef hr
    have hs2 : Settled (p.setBeamline n) := hs
    obtain ⟨h', e1, r1⟩ := parse_rep N (p := p.setBeamline n) hL D (hin n (by simp)) htext hnames hne ha hdef hfuel hr
    obtain ⟨q, e2, r2⟩ := ih (p := { p.setBeamline n with heap := h' }) (A := A.acts as) hL hs2 (fun m hm => hin m (by simp [hm])) htext hdef r1
    refine ⟨q, ?_, ?_⟩
    · rw [← e2]
      show Session.run N fuel (.set n :: .call :: setCalls ns) p = _
      rw [Session.run, Session.run]
      unfold Session.call
      rw [find_settled hs2, e1]
    · rw [List.length_cons, List.replicate_succ, List.flatten_cons, acts_append]
      exact r2

/-- What the parser of a file with plain lines has after the lines were found. -/
theorem plain_session (N : Nums R) {fls : List FLine} (hok : ∀ l ∈ fls, l.Ok) {file : List Str} (hfile : file.map lower = fls.map FLine.text) (name : Str) :
    newSession N file name = .ok ⟨fls.map FLine.text, [], [], lower name, Heap.init (some name)⟩ := by
  have hplain : ∀ l ∈ file, PlainLine (lower l) := by
    intro l hl
    have : lower l ∈ fls.map FLine.text := by rw [← hfile]; exact List.mem_map_of_mem hl
    obtain ⟨x, hx, hxl⟩ := List.mem_map.mp this
    rw [← hxl]
    exact plain_text (hok x hx)
  unfold newSession
  rw [sanitize_plain N file hplain, hfile]
  simp only [replaceVars, List.foldl_nil, List.map_id']

/-- **C132 fails.** What a parser gives that is called again, also after `set_beamline`: the entries of the line of the first call are made again each time,
behind those that are there. `ABeam.acts` says what a sequence of entries gives (see C31). -/
theorem session_again_exact (N : Nums R) {fls : List FLine} (hok : ∀ l ∈ fls, l.Ok) {file : List Str} (hfile : file.map lower = fls.map FLine.text)
    (name : Str) {first : Str} (hfirst : first ≠ []) (D : Str → Str × Str × Params R) {names : List Str} (hline : lineOf fls first = some names)
    {as : List Act} (ha : Acts (lineOf fls) false names as) (hdef : ∀ n b, Act.elem n b ∈ as → DefinedAs N (defsOf fls) n (D n))
    {ns : List Str} (hns : ∀ n ∈ ns, (lineOf fls n).isSome = true) {fuel : Nat} (hfuel : as.length ≤ fuel) :
    ∃ p q ids, newSession N file name = .ok p ∧ p.run N fuel (setCalls (first :: ns)) = some (.ok q) ∧ Unfolds q.heap (q.heap.line 0).seq ids ∧
      ids.map (edata q.heap) = (ABeam.acts ⟨[], fun _ => []⟩ (List.replicate (ns.length + 1) as).flatten).flat.map D := by
  obtain ⟨h1, h2, h3⟩ := findLoop_spec first fls hok
  obtain ⟨text, names', hn', htext, htx⟩ := h3.resolve_left (by rw [hline]; simp)
  rw [hline] at hn'
  injection hn' with hn'
  subst hn'
  have hne : names ≠ [] := h2.ne _ _ hline
  let p1 : Session R := ⟨fls.map FLine.text, [], [], first, Heap.init (some name)⟩
  have hs : Settled p1.find := find_settles hfirst
  have hf : p1.find = ⟨(findLoop first (fls.map FLine.text)).defs, (findLoop first (fls.map FLine.text)).lines,
      (findLoop first (fls.map FLine.text)).text, first, Heap.init (some name)⟩ := by
    unfold Session.find
    rw [if_neg hfirst, findFrom_new]
  have hdef' : ∀ n b, Act.elem n b ∈ as → DefinedAs N p1.find.defs n (D n) := by
    rw [hf, h1]
    exact hdef
  obtain ⟨h', e1, r1⟩ := parse_rep N (p := p1.find) (L := lineOf fls) (by rw [hf]; exact h2) D (by rw [hf, hline]; rfl) (by rw [hf]; exact htext) htx hne
    ha hdef' hfuel (A := ⟨[], fun _ => []⟩) (by rw [hf]; exact init_rep D (some name))
  obtain ⟨q, e2, r2⟩ := calls_rep N D htx hne ha hfuel ns (p := { p1.find with heap := h' }) (by rw [hf]; exact h2) hs hns (by rw [hf]; exact htext)
    hdef' r1
  obtain ⟨ids, hu, hids⟩ := rep_flat r2
  refine ⟨_, q, ids, plain_session N hok hfile name, ?_, hu, ?_⟩
  · rw [← e2]
    show Session.run N fuel (.set first :: .call :: setCalls ns) _ = _
    rw [Session.run, Session.run]
    have : (Session.setBeamline ⟨fls.map FLine.text, [], [], lower name, Heap.init (some name)⟩ first : Session R) = p1 := rfl
    rw [this]
    unfold Session.call
    rw [e1]
  · rw [hids, List.replicate_succ, List.flatten_cons, acts_append]

theorem acts_elems {L : Str → Option (List Str)} : ∀ {names : List Str}, (∀ n ∈ names, L n = none) →
    Acts L false names (names.map fun n => .elem (dropQuotes n) false) := by
  intro names
  induction names with
  | nil => exact fun _ => .nil
  | cons n l ih => exact fun h => .elem (h n (by simp)) (ih fun m hm => h m (List.mem_cons_of_mem _ hm))

theorem acts_elems_flat (names : List Str) : ∀ (A : ABeam), (A.acts (names.map fun n => .elem (dropQuotes n) false)).flat = A.flat ++ names.map dropQuotes := by
  induction names with
  | nil => intro A; simp [ABeam.acts]
  | cons n l ih =>
    intro A
    show ((A.act (.elem (dropQuotes n) false)).acts (l.map fun n => .elem (dropQuotes n) false)).flat = _
    rw [ih, List.map_cons, ← List.singleton_append, ← List.append_assoc]
    congr 1
    exact flat_append A.ents [.elem (dropQuotes n)] A.store

/-- **C132 fails.** A parser for a line of elements that is called `k` times more gives the elements of the line `k + 1` times, whatever lines of the file
are chosen with `set_beamline` before the further calls. -/
theorem session_again_fails (N : Nums R) {fls : List FLine} (hok : ∀ l ∈ fls, l.Ok) {file : List Str} (hfile : file.map lower = fls.map FLine.text)
    (name : Str) {first : Str} (hfirst : first ≠ []) (D : Str → Str × Str × Params R) {names : List Str} (hline : lineOf fls first = some names)
    (hel : ∀ n ∈ names, lineOf fls n = none) (hdef : ∀ n ∈ names, DefinedAs N (defsOf fls) (dropQuotes n) (D (dropQuotes n)))
    {ns : List Str} (hns : ∀ n ∈ ns, (lineOf fls n).isSome = true) {fuel : Nat} (hfuel : names.length ≤ fuel) :
    ∃ p q ids, newSession N file name = .ok p ∧ p.run N fuel (setCalls (first :: ns)) = some (.ok q) ∧ Unfolds q.heap (q.heap.line 0).seq ids ∧
      ids.map (edata q.heap) = ((List.replicate (ns.length + 1) (names.map dropQuotes)).flatten).map D := by
  obtain ⟨p, q, ids, h1, h2, h3, h4⟩ := session_again_exact N hok hfile name hfirst D hline (acts_elems hel) (by
    intro n b hn
    obtain ⟨m, hm, he⟩ := List.mem_map.mp hn
    injection he with he _
    rw [← he]
    exact hdef m hm) hns (by simpa using hfuel)
  refine ⟨p, q, ids, h1, h2, h3, ?_⟩
  rw [h4]
  congr 1
  have : ∀ (k : Nat) (A : ABeam), (A.acts (List.replicate k (names.map fun n => Act.elem (dropQuotes n) false)).flatten).flat =
      A.flat ++ (List.replicate k (names.map dropQuotes)).flatten := by
    intro k
    induction k with
    | zero => intro A; simp [ABeam.acts]
    | succ k ih =>
      intro A
      rw [List.replicate_succ, List.flatten_cons, acts_append, ih, acts_elems_flat, List.replicate_succ, List.flatten_cons, List.append_assoc]
  rw [this]
  rfl

/-- **C131, for the first call.** If `set_beamline` is called before the parser is called for the first time, with a name in lower case, the elements are
those of the chosen line. Missing: names with capital letters (`set_capital_fails`), later calls (`set_ignored`), lines used more than once (C31). -/
theorem set_first_partial (N : Nums R) {fls : List FLine} (hok : ∀ l ∈ fls, l.Ok) {file : List Str} (hfile : file.map lower = fls.map FLine.text)
    (name : Str) {first : Str} (hfirst : first ≠ []) (D : Str → Str × Str × Params R) {names es us : List Str} (hline : lineOf fls first = some names)
    (he : Expands (lineOf fls) names es us) (hus : us.Nodup) (hdef : ∀ n ∈ es, DefinedAs N (defsOf fls) n (D n)) {fuel : Nat}
    (hfuel : es.length + us.length ≤ fuel) :
    ∃ p q ids, newSession N file name = .ok p ∧ p.run N fuel [.set first, .call] = some (.ok q) ∧ Unfolds q.heap (q.heap.line 0).seq ids ∧
      ids.map (edata q.heap) = es.map D := by
  obtain ⟨as, h1, h2, _, h4⟩ := expands_acts he false
  obtain ⟨p, q, ids, e1, e2, e3, e4⟩ := session_again_exact N hok hfile name hfirst D hline h1 (fun n b hn => hdef n (h4 n b hn)) (ns := []) (by simp)
    (fuel := fuel) (by omega)
  refine ⟨p, q, ids, e1, e2, e3, ?_⟩
  rw [e4]
  congr 1
  simp only [List.length_nil, Nat.zero_add, List.replicate_one, List.flatten_cons, List.flatten_nil, List.append_nil]
  rw [flat_linear he false as _ h1 hus (fun x _ => ⟨by simp, rfl⟩) (by intro h; cases h)]
  rfl

/-! ## Capital letters -/

theorem lineOf_lower {fls : List FLine} (h : ∀ l ∈ fls, lower l.text = l.text) {n : Str} (hn : (lineOf fls n).isSome = true) : lower n = n := by
  induction fls with
  | nil => cases hn
  | cons l fls ih =>
    cases l with
    | elem raw => exact ih (fun l hl => h l (by simp [hl])) hn
    | line header blanks its tail =>
      unfold lineOf at hn
      split at hn
      · rename_i hh
        have hl : ∀ c ∈ header, c.toLower = c := by
          have h1 := h _ (List.mem_cons_self ..)
          have h2 : ∀ {l : Str}, l.map Char.toLower = l → ∀ c ∈ l, c.toLower = c := by
            intro l hl c hc
            obtain ⟨i, hi, rfl⟩ := List.getElem_of_mem hc
            have := congrArg (fun l => l[i]?) hl
            simpa [hi] using this
          intro c hc
          exact h2 h1 c (by unfold FLine.text; simp [hc])
        rw [← hh]
        unfold lower
        refine List.map_congr_left (g := id) (fun c hc => ?_) |>.trans (List.map_id _)
        refine hl c ?_
        unfold stripChar at hc
        rw [List.mem_reverse] at hc
        have := (List.dropWhile_sublist _).subset hc
        rw [List.mem_reverse] at this
        exact (List.dropWhile_sublist _).subset this
      · exact ih (fun l hl => h l (by simp [hl])) hn

/-- **C131 fails.** The names of the lines are in lower case, but `set_beamline` keeps the name as it is: for every name with a capital letter, and for
the empty name, the next call raises AssertionError. -/
theorem set_capital_fails (N : Nums R) {fls : List FLine} (hok : ∀ l ∈ fls, l.Ok) {file : List Str} (hfile : file.map lower = fls.map FLine.text)
    (name : Str) {n : Str} (hn : lower n ≠ n ∨ n = []) (fuel : Nat) :
    ∃ p, newSession N file name = .ok p ∧ p.run N fuel [.set n, .call] = some (.error .assertionError) := by
  refine ⟨_, plain_session N hok hfile name, ?_⟩
  have hlow : ∀ l ∈ fls, lower l.text = l.text := by
    intro l hl
    have : l.text ∈ file.map lower := by rw [hfile]; exact List.mem_map_of_mem hl
    obtain ⟨x, _, hx⟩ := List.mem_map.mp this
    rw [← hx, lower_idem]
  rw [Session.run, Session.run]
  unfold Session.call Session.find Session.parse Session.setBeamline
  simp only
  by_cases h0 : n = []
  · rw [if_pos h0]
    rfl
  · rw [if_neg h0]
    simp only
    rw [findFrom_new, if_neg]
    rw [(findLoop_spec n fls hok).2.1.mem]
    intro h
    exact (hn.resolve_right h0) (lineOf_lower hlow h)

/-! ## Examples -/

theorem exFile_ok : ∀ l ∈ exFile, l.Ok := by
  have hn : ∀ t ∈ ["q".toList, "d".toList, "cell".toList], NameText t := by
    intro t ht
    have h : ∀ t ∈ ["q".toList, "d".toList, "cell".toList],
        (∀ c ∈ t, isSpace c = false ∧ c ≠ ',' ∧ c ≠ ')' ∧ c ≠ '(' ∧ c.isDigit = false) ∧ t ≠ [] := by decide
    exact ex_nameText t (h t ht).1 (h t ht).2
  intro l hl
  simp only [exFile, List.mem_cons, List.not_mem_nil, or_false] at hl
  rcases hl with rfl | rfl | rfl | rfl
  · exact ⟨ex_plain ⟨'q', by decide, by decide⟩ (by decide) (by decide) (by decide), by decide⟩
  · exact ⟨ex_plain ⟨'d', by decide, by decide⟩ (by decide) (by decide) (by decide), by decide⟩
  · refine ⟨ex_plain ⟨'c', by decide, by decide⟩ (by decide) (by decide) (by decide), by decide, by simp [Blank]; decide,
      by simp, ?_, by simp [Blank]; decide⟩
    intro i hi
    simp only [List.mem_cons, List.not_mem_nil, or_false] at hi
    rcases hi with rfl | rfl
    exacts [hn _ (by decide), hn _ (by decide)]
  · refine ⟨ex_plain ⟨'t', by decide, by decide⟩ (by decide) (by decide) (by decide), by decide, by simp [Blank],
      by simp, ?_, by simp [Blank]; decide⟩
    intro i hi
    simp only [List.mem_cons, List.not_mem_nil, or_false] at hi
    rcases hi with rfl | rfl | rfl
    exacts [hn _ (by decide), hn _ (by decide), hn _ (by decide)]

/-- The file of the examples. -/
def exLteFile : List Str :=
  ["Q: QUAD\n".toList, "D: drift\n".toList, "CELL: line=(d,q)\n".toList, "\"Top\":LINE=(q,Cell,q)\n".toList]

/-- The line `cell` is parsed first; then `top` is chosen, but the elements of `cell` are added again. -/
example (N : Nums R) : ∃ p q ids, newSession N exLteFile "top".toList = .ok p ∧
    p.run N 5 [.set "cell".toList, .call, .set "top".toList, .call] = some (.ok q) ∧ Unfolds q.heap (q.heap.line 0).seq ids ∧
    ids.map (fun e => (q.heap.elem e).name) = ["d".toList, "q".toList, "d".toList, "q".toList] := by
  obtain ⟨p, q, ids, a, b, c, d⟩ := session_again_fails N exFile_ok (file := exLteFile) (by decide) "top".toList (first := "cell".toList) (by decide)
    (fun n => (n, if n = "q".toList then "quad".toList else "drift".toList, [])) (names := ["d".toList, "q".toList]) (by decide) (by decide)
    (fun n hn => ex_defs N _ (by
      have : ∀ n ∈ ["d".toList, "q".toList], dropQuotes n ∈ ["q".toList, "d".toList] := by decide
      exact this n hn)) (ns := ["top".toList]) (by decide) (fuel := 5) (by decide)
  refine ⟨p, q, ids, a, b, c, ?_⟩
  have := congrArg (List.map Prod.fst) d
  rw [List.map_map, List.map_map] at this
  exact this.trans rfl

/-- The line `top` is chosen before the first call. -/
example (N : Nums R) : ∃ p q ids, newSession N exLteFile "cell".toList = .ok p ∧ p.run N 5 [.set "top".toList, .call] = some (.ok q) ∧
    Unfolds q.heap (q.heap.line 0).seq ids ∧ (q.heap.line 0).name = some "cell".toList ∧
    ids.map (fun e => (q.heap.elem e).name) = ["q".toList, "d".toList, "q".toList, "q".toList] := by
  have he : Expands (lineOf exFile) ["q".toList, "cell".toList, "q".toList]
      ["q".toList, "d".toList, "q".toList, "q".toList] ["cell".toList] :=
    .elem (by decide) (.line (its := ["d".toList, "q".toList]) (as := ["d".toList, "q".toList]) (us := []) (vs := [])
      (by decide) (.elem (n := "d".toList) (by decide) (.elem (n := "q".toList) (by decide) .nil))
      (.elem (n := "q".toList) (by decide) .nil))
  obtain ⟨p, q, ids, a, b, c, d⟩ := set_first_partial N exFile_ok (file := exLteFile) (by decide) "cell".toList (first := "top".toList) (by decide)
    (fun n => (n, if n = "q".toList then "quad".toList else "drift".toList, [])) (by decide) he (by decide)
    (fun n hn => ex_defs N n (by
      have : ∀ n ∈ ["q".toList, "d".toList, "q".toList, "q".toList], n ∈ ["q".toList, "d".toList] := by decide
      exact this n hn)) (fuel := 5) (by decide)
  refine ⟨p, q, ids, a, b, c, session_title a b, ?_⟩
  have := congrArg (List.map Prod.fst) d
  rw [List.map_map, List.map_map] at this
  exact this.trans rfl

example (N : Nums R) : ∃ p, newSession N exLteFile "TOP".toList = .ok p ∧ p.run N 5 [.set "TOP".toList, .call] = some (.error .assertionError) :=
  set_capital_fails N exFile_ok (by decide) "TOP".toList (.inl (by decide)) 5

/-- After a call of the parser for `cell`, the name `nothing` raises AssertionError, and `top` gives what `cell` gives. -/
example (N : Nums R) : ∃ p0 p : Session R, newSession N exLteFile "cell".toList = .ok p0 ∧ p0.call N 5 = some (.ok p) ∧
    (p.setBeamline "nothing".toList).call N 5 = some (.error .assertionError) ∧
    (p.setBeamline "top".toList).call N 5 = (p.call N 5).map fun r => r.map fun q => q.setBeamline "top".toList := by
  obtain ⟨p0, p, ids, a, b, c, d⟩ := session_again_fails N exFile_ok (file := exLteFile) (by decide) "cell".toList (first := "cell".toList) (by decide)
    (fun n => (n, if n = "q".toList then "quad".toList else "drift".toList, [])) (names := ["d".toList, "q".toList]) (by decide) (by decide)
    (fun n hn => ex_defs N _ (by
      have : ∀ n ∈ ["d".toList, "q".toList], dropQuotes n ∈ ["q".toList, "d".toList] := by decide
      exact this n hn)) (ns := []) (by decide) (fuel := 5) (by decide)
  have ha := plain_session N exFile_ok (file := exLteFile) (by decide) "cell".toList
  rw [a] at ha
  injection ha with ha
  have hb : p0.call N 5 = some (.ok p) := by
    have h := b
    change Session.run N 5 [.set "cell".toList, .call] p0 = _ at h
    rw [Session.run, Session.run] at h
    have hp : p0.setBeamline "cell".toList = p0 := by rw [ha]; rfl
    rw [hp] at h
    cases hc : p0.call N 5 with
    | none => rw [hc] at h; cases h
    | some r =>
      cases r with
      | error e => rw [hc] at h; cases h
      | ok x => rw [hc] at h; exact h
  have hl : p.lines = (findLoop "cell".toList (exFile.map FLine.text)).lines := by
    rw [(parse_keeps hb).2.1, ha]
    rfl
  refine ⟨p0, p, a, hb, ?_, ?_⟩
  · rw [set_ignored N 5 (by rw [ha]; exact List.cons_ne_nil _ _) hb, hl, if_neg (by decide)]
  · rw [set_ignored N 5 (by rw [ha]; exact List.cons_ne_nil _ _) hb, hl, if_pos (by decide)]

end Verif.Lte
