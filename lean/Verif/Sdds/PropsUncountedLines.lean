import Verif.Sdds.PropsUncounted
import Verif.Sdds.PropsCounts
import Verif.Sdds.PropsBuffer
import Verif.Sdds.LemmasAscii

/-!
# C148 without buffer

Without buffer the number of rows is the number of lines before the first blank line (SDDS.py:315-322, 383-388), although the rows are not lines.
-/

namespace Verif.Sdds

theorem fileLines_asLines_append (ls : List Bytes) (h : ∀ l ∈ ls, (10 : UInt8) ∉ l) (more : Bytes) :
    fileLines (asLines ls ++ more) = (ls.map fun l => l ++ [10]) ++ fileLines more := by
  induction ls with
  | nil => rfl
  | cons l ls ih =>
    have e : asLines (l :: ls) ++ more = l ++ 10 :: (asLines ls ++ more) := by simp [asLines]
    rw [e]
    unfold fileLines
    rw [fileLinesFrom_line _ _ _ (h l (by simp))]
    have := ih fun x hx => h x (by simp [hx])
    unfold fileLines at this
    rw [this]
    simp

theorem fileLinesFrom_none : ∀ (b cur : Bytes), (10 : UInt8) ∉ b → fileLinesFrom cur b = if cur ++ b = [] then [] else [cur ++ b]
  | [], cur, _ => by simp [fileLinesFrom]
  | x :: b, cur, h => by
    have hx : x ≠ 10 := fun he => h (by simp [he])
    rw [fileLinesFrom, if_neg hx, fileLinesFrom_none b _ fun he => h (by simp [he])]
    simp

/-- `n` lines of `tail` come before the first blank line (which need not exist). A line is blank if it has only white space. -/
structure LinesBefore (tail : Bytes) (n : Nat) (ls : List Bytes) (more : Bytes) : Prop where
  split : tail = (ls.flatMap fun l => l ++ [10]) ++ more
  one : ∀ l ∈ ls, (10 : UInt8) ∉ l
  text : ∀ l ∈ ls, ∃ b ∈ l, b ≠ 32 ∧ ¬ (9 ≤ b ∧ b ≤ 13)
  stop : (10 : UInt8) ∈ more → ∃ w rest, more = w ++ 10 :: rest ∧ ∀ b ∈ w, b ≠ 10 ∧ (b = 32 ∨ 9 ≤ b ∧ b ≤ 13)
  count : n = ls.length + if (10 : UInt8) ∉ more ∧ ∃ b ∈ more, b ≠ 32 ∧ ¬ (9 ≤ b ∧ b ≤ 13) then 1 else 0

theorem allSpace_iff (l : Bytes) : l.all isSpaceByte = false ↔ ∃ b ∈ l, b ≠ 32 ∧ ¬ (9 ≤ b ∧ b ≤ 13) := by
  rw [← Bool.not_eq_true, List.all_eq_true]
  push Not
  refine exists_congr fun b => and_congr_right fun _ => ?_
  simp [isSpaceByte]

theorem LinesBefore.eq {tail : Bytes} {n : Nat} {ls : List Bytes} {more : Bytes} (h : LinesBefore tail n ls more) : linesToBlank tail = n := by
  unfold linesToBlank
  have e : tail = asLines ls ++ more := h.split
  rw [e, fileLines_asLines_append _ h.one, List.takeWhile_append_of_pos, List.length_append, List.length_map, h.count]
  · congr 1
    by_cases hm : (10 : UInt8) ∈ more
    · obtain ⟨w, rest, rfl, hw⟩ := h.stop hm
      rw [if_neg (fun hc => hc.1 hm)]
      unfold fileLines
      rw [fileLinesFrom_line _ _ _ fun hc => (hw 10 hc).1 rfl, List.takeWhile_cons_of_neg]
      · rfl
      · simp only [List.nil_append, List.all_append, Bool.not_and, Bool.or_eq_true, Bool.not_eq_true', not_or]
        refine ⟨?_, by decide⟩
        rw [allSpace_iff]
        rintro ⟨b, hb, h1, h2⟩
        rcases (hw b hb).2 with h3 | h3
        · exact h1 h3
        · exact h2 h3
    · unfold fileLines
      rw [fileLinesFrom_none _ _ hm, List.nil_append]
      by_cases hb : ∃ b ∈ more, b ≠ 32 ∧ ¬ (9 ≤ b ∧ b ≤ 13)
      · have h0 : more ≠ [] := by
          rintro rfl
          obtain ⟨b, hb, _⟩ := hb
          cases hb
        rw [if_neg h0, if_pos ⟨hm, hb⟩, List.takeWhile_cons_of_pos]
        · rfl
        · rw [(allSpace_iff more).2 hb]; rfl
      · have hR : (if (10 : UInt8) ∉ more ∧ ∃ b ∈ more, b ≠ 32 ∧ ¬ (9 ≤ b ∧ b ≤ 13) then 1 else 0) = 0 := if_neg fun hc => hb hc.2
        rw [hR]
        by_cases h0 : more = []
        · rw [if_pos h0]; rfl
        · rw [if_neg h0, List.takeWhile_cons_of_neg]
          · rfl
          · rw [Bool.not_eq_true', allSpace_iff]; exact hb
  · intro l hl
    obtain ⟨s, hs, rfl⟩ := List.mem_map.1 hl
    rw [Bool.not_eq_true', allSpace_iff]
    obtain ⟨b, hb, hb'⟩ := h.text s hs
    exact ⟨b, by simp [hb], hb'⟩

/-- **C148 is false, without buffer.** If `z` lines come before the first blank line of the rows and what follows, `read([0])` returns `z` rows of the first page, whatever its row
count. The page must be seen at all (the line after its first byte is not blank). -/
theorem uncounted_lines_fails {ft : FloatText} {d : Doc} {l : Layout} (h : d.AnnouncesUncounted ft l) (hl : l.Ok) (hcols : l.cols ≠ []) {pg : Page}
    {maxStr : Nat} (hpg : PageOk maxStr l pg) (rest : Bytes) {z : Nat} (hz : z ≤ pg.rows.length) {ls : List Bytes} {more : Bytes}
    (hrows : LinesBefore ((pg.rows.flatMap (·.flatMap encodeVal)) ++ rest) z ls more) (hseen : ¬ LooksEnded (encodePage pg ++ rest)) {fuel : Nat}
    (hfuel : d.comments.length + d.namelists.length + 2 ≤ fuel) :
    ∃ r, openSdds ft fuel false maxStr (utf8 d.text ++ (encodePage pg ++ rest)) = some (.ok r) ∧
      ∀ fuel', 2 ≤ fuel' → r.readZ fuel' (some [0]) = some (.ok ⟨[[paramRecord l pg]], if z = 0 then [] else [some ((rowRecords l pg).take z)]⟩) := by
  have e : encodePage pg ++ rest = paramBytes pg ++ (colBytes pg ++ rest) := by rw [encodePage_eq, List.append_assoc]
  obtain ⟨ps, hp1, hp2⟩ := params_of _ _ h.params h.fixed
  obtain ⟨cs, hc1, hc2⟩ := cols_of _ _ h.cols h.noLength
  obtain ⟨v, hv, hv0⟩ := h.counts
  refine ⟨_, open_doc ft h.ok _ hfuel false maxStr hp1 hc1 h.mode, ?_⟩
  generalize hr : (Reader.mk (utf8 d.text ++ (encodePage pg ++ rest)) false maxStr (utf8 d.text).length
    (d.namelists.length + 2) ps cs false (textTrue (attrVal d.data "no_row_counts".toList))) = r
  have hd : r.counted.Describes l := by subst hr; exact ⟨rfl, rfl, hp2, hc2⟩
  have hb : r.buffer = false := by subst hr; rfl
  have hfile : r.file = utf8 d.text ++ (encodePage pg ++ rest) := by subst hr; rfl
  have hend : r.headerEnd = (utf8 d.text).length := by subst hr; rfl
  have hmax : r.maxStr = maxStr := by subst hr; rfl
  have hn : r.noRowCounts = true := by
    subst hr
    show textTrue (attrVal d.data "no_row_counts".toList) = true
    rw [hv]
    simpa [textTrue] using hv0
  clear hr
  subst hmax
  set H := (utf8 d.text).length with hH
  let p : Pos := ⟨0, H⟩
  have hcur : r.counted.cur p = H := by simp [Reader.cur, Reader.counted, hb, p]
  have hok : r.counted.PosOk p := fun _ => rfl
  have hdrop0 : r.file.drop H = encodePage pg ++ rest := by rw [hfile, hH, List.drop_left]
  have hdrop : r.counted.file.drop (r.counted.cur p) = paramBytes pg ++ (colBytes pg ++ rest) := by
    rw [hcur, ← e]; exact hdrop0
  have hlen : r.file.length = H + ((paramBytes pg).length + (colBytes pg ++ rest).length) := by
    rw [hfile, e, List.length_append, List.length_append]
  have hget := Reader.pageParams_ok (r := r.counted) hd hl (pg := pg) hpg (p := p) hok hdrop (by rw [hcur]; show H ≤ r.file.length; omega)
  rw [Reader.getParams_counted] at hget
  set p1 := r.counted.adv p (paramBytes pg).length with hp1'
  have hcur1 : r.counted.cur p1 = H + (paramBytes pg).length := by rw [hp1', Reader.cur_adv, hcur]
  have hdrop1 : r.file.drop (H + (paramBytes pg).length) = colBytes pg ++ rest := by
    rw [← List.drop_drop, hdrop0, e, List.drop_left]
  have hptr1 : p1.ptr = H + (paramBytes pg).length := by
    rw [hp1']
    simp [Reader.adv, Reader.counted, hb, p]
  have hgetZ : r.getParamsZ r.paramKeys [] p.toZ = .ok (pageArrs l pg, p1.toZ) := by
    rw [getParamsZ_nat]
    have : r.getParams r.paramKeys [] p = .ok (pageArrs l pg, p1) := by
      rw [← hget]
      congr 1
      have ha : r.ascii = false := hd.binary
      unfold Reader.paramKeys
      simp [Reader.counted, ha]
    rw [this]; rfl
  have hcne : r.cols ≠ [] := by
    intro h0
    have := hd.cols
    rw [show r.counted.cols = r.cols from rfl, h0] at this
    exact hcols (List.map_eq_nil_iff.1 this.symm)
  have hrc : r.rowCountZ (pageArrs l pg) p1.toZ = .ok (z : Int) := by
    unfold Reader.rowCountZ
    rw [if_neg hcne, hn, if_neg (by simp), hb, if_neg (by simp)]
    have : p1.toZ.ptr = H + (paramBytes pg).length := hptr1
    rw [this, hdrop1]
    have := LinesBefore.eq hrows
    rw [show colBytes pg ++ rest = (pg.rows.flatMap (·.flatMap encodeVal)) ++ rest from rfl, this]
  have hpage : ∃ p2, r.readPageZ false true p.toZ ⟨[], []⟩ = .ok (⟨[[paramRecord l pg]], if z = 0 then [] else [some ((rowRecords l pg).take z)]⟩, p2) := by
    unfold Reader.readPageZ
    rw [hgetZ]
    simp only [bind, Except.bind, if_true, Reader.pageParams_merge hl hpg, hrc, List.nil_append]
    by_cases hz0 : z = 0
    · subst hz0
      rw [if_pos (by simp), if_pos rfl]
      exact ⟨_, rfl⟩
    · rw [if_neg (by exact_mod_cast hz0), if_neg hz0]
      simp only [Bool.or_true, Bool.true_or, if_true]
      have hpg' : PageOk r.counted.maxStr l { pg with rows := pg.rows.take z } :=
        ⟨hpg.1, fun row hr => hpg.2.1 row (List.mem_of_mem_take hr), by
          have := hpg.2.2.1
          rw [List.length_take]
          omega, hpg.2.2.2.1, fun row hr => hpg.2.2.2.2 row (List.mem_of_mem_take hr)⟩
      have hsplit : colBytes pg = colBytes { pg with rows := pg.rows.take z } ++ (pg.rows.drop z).flatMap (·.flatMap encodeVal) := by
        unfold colBytes
        rw [← List.flatMap_append, List.take_append_drop]
      obtain ⟨cd, g1, g2⟩ := Reader.pageCols_ok (r := r.counted) hd hl hpg' hcols (by
          intro hc
          have h12 := congrArg List.length hc
          rw [List.length_nil, List.length_take] at h12
          omega) (p := p1) (Reader.adv_ok hok _) (rest := (pg.rows.drop z).flatMap (·.flatMap encodeVal) ++ rest) (by
            rw [hcur1]
            show r.file.drop _ = _
            rw [hdrop1, hsplit, List.append_assoc]) (by
            rw [hcur1]
            show _ ≤ r.file.length
            omega)
      rw [Reader.getCols_counted] at g1
      rw [show ({ pg with rows := pg.rows.take z } : Page).rows.length = z by
        rw [List.length_take]
        omega] at g1
      have g2' : addPage r.maxStr cd = _ := g2
      rw [getColsZ_nat, g1]
      have hcdne : cd ≠ [] := by
        rintro rfl
        have h12 : (rowRecords l { pg with rows := pg.rows.take z }).length = 0 := by
          have : addPage r.maxStr [] = .ok [] := rfl
          rw [this] at g2'
          injection g2' with g3
          rw [← g3]; rfl
        rw [rowRecords, List.length_map, List.length_take] at h12
        omega
      simp only [Except.map, addPageZ, if_neg hcdne, g2']
      refine ⟨_, by
        rw [show rowRecords l { pg with rows := pg.rows.take z } = (rowRecords l pg).take z by
          unfold rowRecords
          rw [List.map_take]]⟩
  obtain ⟨p2, hpage⟩ := hpage
  intro fuel' hf'
  obtain ⟨fuel', rfl⟩ : ∃ k, fuel' = k + 2 := ⟨fuel' - 2, by omega⟩
  have hfe : r.fileEndZ p.toZ = false := by
    rw [fileEndZ_nat]
    unfold Reader.fileEnd
    rw [hb, if_neg (by simp)]
    show (match r.file.drop H with | [] => true | _ :: rest => (readline rest).1.all isSpaceByte) = false
    rw [hdrop0]
    unfold LooksEnded at hseen
    cases hx : encodePage pg ++ rest with
    | nil => rw [hx] at hseen; exact absurd rfl hseen
    | cons b bs => rw [hx] at hseen; simpa using hseen
  have hloop : r.pageLoopZ (some [0]) (fuel' + 2) 0 p.toZ ⟨[], []⟩ = some (.ok ⟨[[paramRecord l pg]], if z = 0 then [] else [some ((rowRecords l pg).take z)]⟩) := by
    unfold Reader.pageLoopZ
    rw [if_neg (by simp [pastPages]), hfe, if_neg (by simp)]
    rw [show (some [0] : Option (List Nat)).isNone = false from rfl, show wantedPage (some [0]) 0 = true by simp [wantedPage], hpage]
    simp only
    unfold Reader.pageLoopZ
    rw [if_pos (by simp [pastPages])]
  unfold Reader.readZ
  rw [if_neg (by simp), hb, hend]
  simp only [Bool.false_eq_true, if_false]
  have hloop' : r.pageLoopZ (some [0]) (fuel' + 2) 0 ⟨0, H⟩ ⟨[], []⟩ = _ := hloop
  rw [hloop']
  simp only [bind, Except.bind]
  by_cases hz0 : z = 0
  · simp [hz0, concat, concatZ]
  · simp [hz0, concat, concatZ]

/-- The same header, and a page whose rows are one line. -/
def exPageLine : Page := ⟨[.num .double 7], [[.num .double 0x0101010101010101, .num .long 0x0a0a0101], [.num .double 3, .num .long 4]]⟩

example : ∃ r, openSdds exText 20 false 50 (utf8 exDocUncounted.text ++ (encodePage exPageLine ++ [])) = some (.ok r) ∧
    ∀ fuel', 2 ≤ fuel' → r.readZ fuel' (some [0]) = some (.ok ⟨[[paramRecord exLayout exPageLine]],
      if 1 = 0 then [] else [some ((rowRecords exLayout exPageLine).take 1)]⟩) :=
  uncounted_lines_fails exDocUncounted_announces exLayout_ok (by decide) (pg := exPageLine)
    (by simp [exPageLine, PageOk, exLayout, Fits, FType.size]) [] (by decide) (ls := [[1, 1, 1, 1, 1, 1, 1, 1, 1, 1]]) (more := 10 :: [3, 0, 0, 0, 0, 0, 0, 0, 4, 0, 0, 0])
    ⟨by decide, by decide, by decide, fun _ => ⟨[], _, rfl, by simp⟩, by decide⟩ (by decide) (by decide)

end Verif.Sdds
