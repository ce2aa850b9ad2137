import Verif.Trace.LemmasWin
import Verif.Trace.PropsNumbers
import Verif.Trace.PropsEntries

/-!
# Property C129: the entries of a TRACE 3-D file
-/

namespace Verif.Trace

open Verif.Lattice Verif.Lte

variable {R : Type}

/-! ## What an entry means -/

/-- Units of the numbers in a TRACE 3-D file. -/
inductive TUnit
  | plain
  | mm
  | deg
  | megavolt
  deriving DecidableEq

/-- The element types of TRACE 3-D that are known, with their numbers in the order of the file. -/
def kind : Nat → Option (Str × List (Str × TUnit))
  | 1 => some ("drift".toList, [("L".toList, .mm)])
  | 3 => some ("quadrupole".toList, [("K1".toList, .plain), ("L".toList, .mm), ("DX".toList, .mm), ("DY".toList, .mm), ("OF".toList, .plain)])
  | 8 => some ("sbend".toList, [("ANGLE".toList, .deg), ("R".toList, .mm), ("INDEX".toList, .plain), ("VF".toList, .plain)])
  | 9 => some ("edge".toList, [("BETA".toList, .deg), ("R".toList, .mm), ("G".toList, .mm), ("K1".toList, .plain), ("K2".toList, .plain)])
  | 10 => some ("rfca".toList, [("VOLT".toList, .megavolt), ("PHASE".toList, .plain), ("EGF".toList, .plain), ("CHANGE_P0".toList, .plain),
      ("H".toList, .plain)])
  | _ => none

/-- The number in SI units. -/
def TUnit.scale (mul : R → R → R) (milli degree mega : R) : TUnit → R → R
  | .plain, x => x
  | .mm, x => mul x milli
  | .deg, x => mul x degree
  | .megavolt, x => mul x mega

/-- The parts of an entry: `cmt(name) gap nt idx = sp typ sep a( mid = numbers tail`. -/
structure TLine where
  start : Str
  name : Str
  gap : Str
  idx : Str
  sp : Str
  typ : Str
  sep : Str
  mid : Str
  numbers : List (Str × Numeral)
  tail : Str

/-- Everything in front of the first equals sign. -/
def TLine.front (t : TLine) : Str := t.start ++ ("cmt(".toList ++ (t.name ++ ')' :: (t.gap ++ ("nt".toList ++ t.idx))))

/-- Everything in front of `a(`. -/
def TLine.head (t : TLine) : Str := t.front ++ '=' :: (t.sp ++ (t.typ ++ t.sep))

/-- The line. -/
def TLine.text (t : TLine) : Str := t.head ++ ("a(".toList ++ (t.mid ++ '=' :: piecesText t.numbers t.tail))

/-- The parts fit together. -/
structure TLine.Ok (t : TLine) : Prop where
  start : Blank t.start
  name : ')' ∉ t.name
  front : '=' ∉ t.front
  sp : ∀ c ∈ t.sp, c.isDigit = false
  typ : Digits t.typ
  typ_ne : t.typ ≠ []
  sep : ∀ c, t.sep.head? = some c → c.isDigit = false
  line : NumberLine t.head t.mid t.numbers t.tail

/-- The numbers as they are read, see C35. -/
def TLine.values (F : FNums R) (t : TLine) : List R := (t.numbers.flatMap fun p => p.2.reads).map fun n => F.float n.text

/-- The element that the entry describes: numbers in SI units, and the arc length of bends. -/
def TLine.element (F : FNums R) (milli degree mega : R) (t : TLine) : Elem R :=
  match kind (natVal t.typ) with
  | none => noElem
  | some (cls, fs) =>
    { name := strip t.name
      type := cls
      params := ((fs.zip (t.values F)).map fun p => (lower p.1.1, PVal.num (p.1.2.scale F.mul milli degree mega p.2))) ++
        match natVal t.typ, t.values F with
        | 8, angle :: r :: _ => [("l".toList, .num (F.abs (F.mul (F.mul r milli) (F.mul angle degree))))]
        | _, _ => []
      top := 0 }

/-! ## Reading the parts -/

theorem findSub_le (sub a b : Str) : ∃ i, findSub sub (a ++ (sub ++ b)) = some i ∧ i ≤ a.length := by
  induction a with
  | nil =>
    refine ⟨0, ?_, by simp⟩
    cases sub with
    | nil => cases b <;> simp [findSub, List.isPrefixOf]
    | cons c cs =>
      rw [List.nil_append, List.cons_append, findSub, if_pos]
      rw [List.isPrefixOf_iff_prefix]
      exact ⟨b, by simp⟩
  | cons c a ih =>
    obtain ⟨i, h1, h2⟩ := ih
    rw [List.cons_append, findSub]
    by_cases hp : sub.isPrefixOf (c :: (a ++ (sub ++ b))) = true
    · exact ⟨0, if_pos hp, by simp⟩
    · rw [if_neg hp, h1]
      exact ⟨i + 1, rfl, by simpa using h2⟩

theorem digitsVal_natVal : ∀ (s : Str) (acc : Nat), Digits s → digitsVal acc s = some (s.foldl (fun v c => v * 10 + (c.toNat - '0'.toNat)) acc) := by
  intro s
  induction s with
  | nil => intro acc _; rfl
  | cons c s ih =>
    intro acc hd
    rw [digitsVal, if_pos (hd c (by simp)), ih _ (fun x hx => hd x (List.mem_cons_of_mem _ hx)), List.foldl_cons]
    rfl

theorem matchDigits_none {c : Char} (h : c.isDigit = false) (s : Str) : matchDigits (c :: s) = none := by
  unfold matchDigits
  simp [h]

theorem findDigits_skip {sp : Str} (h : ∀ c ∈ sp, c.isDigit = false) (rest : Str) : findFrom matchDigits 0 (sp ++ rest) = findFrom matchDigits 0 rest := by
  induction sp with
  | nil => rfl
  | cons c sp ih =>
    rw [List.cons_append, findFrom_none (matchDigits_none (h c (by simp)) _)]
    exact ih fun x hx => h x (List.mem_cons_of_mem _ hx)

/-- The type number is found behind the first equals sign. -/
theorem elementType_exact {u v sp typ rest : Str} (heq : '=' ∉ u ++ ("nt".toList ++ v)) (hsp : ∀ c ∈ sp, c.isDigit = false) (hd : Digits typ) (hne : typ ≠ [])
    (hr : ∀ c, rest.head? = some c → c.isDigit = false) :
    elementType ((u ++ ("nt".toList ++ v)) ++ '=' :: (sp ++ (typ ++ rest))) = .ok (natVal typ) := by
  set p := u ++ ("nt".toList ++ v) with hp
  set q := sp ++ (typ ++ rest) with hq
  obtain ⟨i, h1, h2⟩ := findSub_le "nt".toList u (v ++ '=' :: q)
  have hline : p ++ '=' :: q = u ++ ("nt".toList ++ (v ++ '=' :: q)) := by rw [hp]; simp only [List.append_assoc]
  have hil : i ≤ p.length := by rw [hp, List.length_append]; omega
  have hdrop : sliceFrom (p ++ '=' :: q) (i : Int) = p.drop i ++ '=' :: q := by
    rw [sliceFrom_nat _ _ (by rw [List.length_append (as := p)]; omega), List.drop_append_of_le_length hil]
  have hfind : findSub "=".toList (p.drop i ++ '=' :: q) = some (p.length - i) := by
    rw [show "=".toList = ['='] by decide, findSub_char _ _ (fun h => heq (List.mem_of_mem_drop h)), List.length_drop]
  have hrest : sliceFrom (p ++ '=' :: q) ((i : Int) + ((p.length - i : Nat) : Int)) = '=' :: q := by
    rw [← Nat.cast_add, show i + (p.length - i) = p.length by omega, sliceFrom_nat _ _ (by rw [List.length_append (as := p)]; omega), List.drop_left]
  have hall : findAll matchDigits ('=' :: q) = typ :: findFrom matchDigits 0 rest := by
    unfold findAll
    rw [findFrom_none (matchDigits_none (by decide) _), hq, findDigits_skip hsp, findFrom_match hne]
    unfold matchDigits
    rw [takeWhile_digits hd hr, if_neg hne]
  have hfn : pyFind "nt".toList (p ++ '=' :: q) = i := by
    unfold pyFind
    rw [hline, h1]
  unfold elementType
  simp only
  rw [hfn, hdrop]
  have hfe : pyFind "=".toList (p.drop i ++ '=' :: q) = ((p.length - i : Nat) : Int) := by
    unfold pyFind
    rw [hfind]
  rw [hfe, hrest, hall]
  simp only
  rw [digitsVal_natVal _ _ hd]
  rfl

/-- The name is the text in the first parentheses. -/
theorem elementName_exact {start nm rest : Str} (hs : Blank start) (hn : ')' ∉ nm) :
    elementName (start ++ ("cmt(".toList ++ (nm ++ ')' :: rest))) = strip nm := by
  have h1 : findSub "cmt(".toList (start ++ ("cmt(".toList ++ (nm ++ ')' :: rest))) = some start.length := by
    refine findSub_first start _ (by decide) ?_
    intro i hi h
    rw [List.drop_append_of_le_length (by omega), List.drop_eq_getElem_cons hi] at h
    obtain ⟨t, ht⟩ := h
    have : start[i] = 'c' := by
      rw [show "cmt(".toList = ['c', 'm', 't', '('] by decide, List.cons_append, List.cons_append] at ht
      injection ht with ht _
      exact ht.symm
    have hsp := hs _ (List.getElem_mem hi)
    rw [this] at hsp
    exact absurd hsp (by decide)
  have h2 : findSub ")".toList (start ++ ("cmt(".toList ++ (nm ++ ')' :: rest))) = some (start.length + 4 + nm.length) := by
    have := findSub_char (c := ')') (start ++ ("cmt(".toList ++ nm)) rest (by
      simp only [List.mem_append, not_or]
      refine ⟨?_, by decide, hn⟩
      intro h
      exact absurd (hs _ h) (by decide))
    rw [show ")".toList = [')'] by decide]
    rw [List.append_assoc, List.append_assoc] at this
    rw [this, List.length_append, List.length_append, show "cmt(".toList.length = 4 by decide]
    congr 1
    omega
  unfold elementName pyFind
  rw [h1, h2]
  simp only
  congr 1
  unfold slice clip
  set line := start ++ ("cmt(".toList ++ (nm ++ ')' :: rest)) with hline
  have hlen : line.length = start.length + (4 + (nm.length + (rest.length + 1))) := by
    rw [hline]
    simp only [List.length_append, List.length_cons]
    rfl
  rw [if_neg (by omega), if_neg (by omega)]
  have e1 : ((start.length : Int) + 4).toNat = start.length + 4 := by omega
  rw [e1, Int.toNat_natCast, Nat.min_eq_left (by omega), Nat.min_eq_left (by omega)]
  have e2 : line = (start ++ "cmt(".toList) ++ (nm ++ ')' :: rest) := by rw [hline, List.append_assoc]
  have e3 : (start ++ "cmt(".toList).length = start.length + 4 := by rw [List.length_append]; rfl
  rw [e2, ← e3, List.take_length_add_append, List.drop_left, List.take_left]

theorem findSub_absent {c : Char} (s : Str) (hc : c ∉ s) : findSub [c] s = none := by
  induction s with
  | nil => rfl
  | cons d s ih =>
    rw [List.mem_cons, not_or] at hc
    rw [findSub, if_neg, ih hc.2]
    · rfl
    · rw [List.isPrefixOf_iff_prefix]
      rintro ⟨t, ht⟩
      injection ht with h _
      exact hc.1 h

/-- A name whose parenthesis is never closed takes the whole rest of the line but its last character. -/
theorem trace_name_unclosed {start rest : Str} (hs : Blank start) (hn : ')' ∉ rest) :
    elementName (start ++ ("cmt(".toList ++ rest)) = strip rest.dropLast := by
  have h1 : findSub "cmt(".toList (start ++ ("cmt(".toList ++ rest)) = some start.length := by
    refine findSub_first start _ (by decide) ?_
    intro i hi h
    rw [List.drop_append_of_le_length (by omega), List.drop_eq_getElem_cons hi] at h
    obtain ⟨t, ht⟩ := h
    have : start[i] = 'c' := by
      rw [show "cmt(".toList = ['c', 'm', 't', '('] by decide, List.cons_append, List.cons_append] at ht
      injection ht with ht _
      exact ht.symm
    have hsp := hs _ (List.getElem_mem hi)
    rw [this] at hsp
    exact absurd hsp (by decide)
  have h2 : findSub ")".toList (start ++ ("cmt(".toList ++ rest)) = none := by
    rw [show ")".toList = [')'] by decide]
    refine findSub_absent _ ?_
    simp only [List.mem_append, not_or]
    refine ⟨?_, by decide, hn⟩
    intro h
    exact absurd (hs _ h) (by decide)
  unfold elementName pyFind
  rw [h1, h2]
  simp only
  congr 1
  unfold slice clip
  set line := start ++ ("cmt(".toList ++ rest) with hline
  have hlen : line.length = start.length + (4 + rest.length) := by
    rw [hline]
    simp only [List.length_append]
    rfl
  rw [if_neg (show ¬ ((start.length : Int) + 4 < 0) by omega), if_pos (show (-1 : Int) < 0 by omega)]
  have e1 : ((start.length : Int) + 4).toNat = start.length + 4 := by omega
  have e4 : ((line.length : Int) + -1).toNat = start.length + (4 + rest.length) - 1 := by omega
  rw [e1, e4, Nat.min_eq_left (by omega)]
  have e2 : line = (start ++ "cmt(".toList) ++ rest := by rw [hline, List.append_assoc]
  have e3 : (start ++ "cmt(".toList).length = start.length + 4 := by rw [List.length_append]; rfl
  rcases List.eq_nil_or_concat rest with h0 | ⟨r, c, h0⟩
  · rw [h0]
    rw [List.drop_eq_nil_of_le]
    · rfl
    · rw [List.length_take]
      simp only [List.length_nil]
      omega
  · have e5 : start.length + (4 + rest.length) - 1 = (start ++ "cmt(".toList).length + r.length := by
      rw [e3, h0]
      simp only [List.concat_eq_append, List.length_append, List.length_singleton]
      omega
    rw [e5, e2, ← e3, List.take_length_add_append, List.drop_left, h0, List.concat_eq_append, List.dropLast_concat, List.take_left]

/-! ## Parameters -/

theorem unitStep (mul : R → R → R) (kv : Str × R) (ps : Dict Str R) (hn : (ps.map Prod.fst).Nodup) :
    (match dget ps kv.1 with
      | some x => dset ps kv.1 (mul x kv.2)
      | none => ps) = ps.map fun p => (p.1, if p.1 = kv.1 then mul p.2 kv.2 else p.2) := by
  induction ps with
  | nil => rfl
  | cons p ps ih =>
    rw [List.map_cons, List.nodup_cons] at hn
    rw [dget_cons, List.map_cons]
    by_cases hp : p.1 = kv.1
    · have hrest : ∀ q ∈ ps, q.1 ≠ kv.1 := by
        intro q hq hqk
        exact hn.1 (by rw [hp, ← hqk]; exact List.mem_map_of_mem hq)
      simp only [if_pos hp]
      rw [dset, if_pos hp, hp]
      congr 1
      refine (List.map_id ps).symm.trans (List.map_congr_left ?_)
      intro q hq
      rw [if_neg (hrest q hq)]
      rfl
    · simp only [if_neg hp]
      rw [← ih hn.2]
      cases dget ps kv.1 with
      | none => rfl
      | some x =>
        simp only
        rw [dset, if_neg hp]

/-- What the table of factors makes of one number. -/
def unitFold (mul : R → R → R) (conv : List (Str × R)) (k : Str) (x : R) : R :=
  conv.foldl (fun x kv => if k = kv.1 then mul x kv.2 else x) x

theorem convertUnits_eq (F : FNums R) (ps : Dict Str R) (hn : (ps.map Prod.fst).Nodup) :
    convertUnits F ps = ps.map fun p => (p.1, unitFold F.mul F.conv p.1 p.2) := by
  unfold convertUnits
  generalize F.conv = conv
  induction conv generalizing ps with
  | nil =>
    simp only [List.foldl_nil, unitFold]
    exact (List.map_id ps).symm
  | cons kv conv ih =>
    rw [List.foldl_cons]
    have e := unitStep F.mul kv ps hn
    refine Eq.trans (congrArg (fun z => List.foldl _ z conv) e) ?_
    rw [ih]
    · rw [List.map_map]
      rfl
    · rw [List.map_map]
      exact hn

theorem kind_table {n : Nat} {cls : Str} {fs : List (Str × TUnit)} (h : kind n = some (cls, fs)) :
    classifier n = some cls ∧ parameterNames n = some (fs.map Prod.fst) ∧ strip (lower cls) = cls ∧ (fs.map Prod.fst).Nodup ∧
      (fs.map fun f => lower f.1).Nodup ∧ (∀ f ∈ fs, f.1 ∉ reserved) ∧ (cls = "sbend".toList ↔ n = 8) ∧
      (n = 8 → fs = [("ANGLE".toList, .deg), ("R".toList, .mm), ("INDEX".toList, .plain), ("VF".toList, .plain)]) := by
  unfold kind at h
  split at h
  all_goals first
    | (simp only [Option.some.injEq, Prod.mk.injEq] at h
       obtain ⟨rfl, rfl⟩ := h
       refine ⟨by decide, by decide, by decide, by decide, by decide, by decide, by decide, ?_⟩
       first | (intro h; exact rfl) | (intro h; exact absurd h (by decide)))
    | exact absurd h (by simp)

theorem kind_none {n : Nat} (h : kind n = none) : parameterNames n = none := by
  unfold kind at h
  split at h
  all_goals first
    | (exfalso; revert h; simp; done)
    | skip
  unfold parameterNames
  rename_i h1 h3 h8 h9 h10
  rw [if_neg h1, if_neg h3, if_neg h8, if_neg h9, if_neg h10]

/-- The units the parameters are read in. -/
def unitTable : List (Str × TUnit) :=
  [("L".toList, .mm), ("R".toList, .mm), ("G".toList, .mm), ("dt".toList, .deg), ("ANGLE".toList, .deg), ("BETA".toList, .deg),
   ("DX".toList, .mm), ("DY".toList, .mm), ("VOLT".toList, .megavolt)]

def TUnit.number (milli degree mega : R) : TUnit → R
  | .deg => degree
  | .megavolt => mega
  | _ => milli

theorem unitFold_filter (mul : R → R → R) (milli degree mega : R) (k : Str) : ∀ (tb : List (Str × TUnit)) (x : R),
    unitFold mul (tb.map fun p => (p.1, p.2.number milli degree mega)) k x =
      ((tb.filter fun p => k = p.1).map Prod.snd).foldl (fun x u => mul x (u.number milli degree mega)) x := by
  intro tb
  induction tb with
  | nil => intro x; rfl
  | cons p tb ih =>
    intro x
    have h := ih (if k = p.1 then mul x (p.2.number milli degree mega) else x)
    refine Eq.trans h ?_
    by_cases hp : k = p.1
    · rw [List.filter_cons_of_pos (by simpa using hp), if_pos hp]
      rfl
    · rw [List.filter_cons_of_neg (by simpa using hp), if_neg hp]

theorem kind_units (mul : R → R → R) (milli degree mega : R) {n : Nat} {cls : Str} {fs : List (Str × TUnit)} (h : kind n = some (cls, fs)) :
    ∀ f ∈ fs, ∀ x, unitFold mul (traceConv milli degree mega) f.1 x = f.2.scale mul milli degree mega x := by
  have key : ∀ f ∈ fs, (unitTable.filter fun p => f.1 = p.1).map Prod.snd = if f.2 = .plain then [] else [f.2] := by
    unfold kind at h
    split at h
    case h_6 => exact absurd h (by simp)
    all_goals
      simp only [Option.some.injEq, Prod.mk.injEq] at h
      obtain ⟨-, rfl⟩ := h
      decide +kernel
  intro f hf x
  have e : traceConv milli degree mega = unitTable.map fun p => (p.1, p.2.number milli degree mega) := rfl
  rw [e, unitFold_filter, key f hf]
  cases hu : f.2 <;> rfl

/-! ## The element -/

theorem dset_new {K V : Type} [DecidableEq K] : ∀ (d : Dict K V) (k : K) (v : V), (∀ p ∈ d, p.1 ≠ k) → dset d k v = d ++ [(k, v)] := by
  intro d
  induction d with
  | nil => intro k v _; rfl
  | cons p d ih =>
    intro k v h
    rw [dset, if_neg (h p (by simp)), ih k v fun q hq => h q (List.mem_cons_of_mem _ hq)]
    rfl

theorem dset_same {K V : Type} [DecidableEq K] : ∀ (d : Dict K V) (k : K) (v : V), dget d k = some v → dset d k v = d := by
  intro d
  induction d with
  | nil => intro k v h; exact absurd h (by rw [dget_nil]; simp)
  | cons p d ih =>
    intro k v h
    rw [dget_cons] at h
    by_cases hp : p.1 = k
    · rw [if_pos hp] at h
      injection h with h
      rw [dset, if_pos hp, ← hp, ← h]
    · rw [if_neg hp] at h
      rw [dset, if_neg hp, ih k v h]

theorem initParams_distinct (ps : List (Str × PVal R)) (hn : (ps.map fun p => lower p.1).Nodup) :
    initParams ps = ps.map fun p => (lower p.1, p.2) := by
  have key : ∀ (ps : List (Str × PVal R)) (d : Params R), (ps.map fun p => lower p.1).Nodup → (∀ p ∈ ps, ∀ q ∈ d, q.1 ≠ lower p.1) →
      ps.foldl (fun d kv => Params.setItem d kv.1 kv.2) d = d ++ ps.map fun p => (lower p.1, p.2) := by
    intro ps
    induction ps with
    | nil => intro d _ _; simp
    | cons p ps ih =>
      intro d hn hd
      rw [List.map_cons, List.nodup_cons] at hn
      rw [List.foldl_cons, Params.setItem, dset_new _ _ _ (hd p (by simp)), ih _ hn.2, List.map_cons, List.append_assoc]
      · rfl
      · intro q hq r hr
        rcases List.mem_append.1 hr with hr | hr
        · exact hd q (List.mem_cons_of_mem _ hq) r hr
        · rw [List.mem_singleton] at hr
          rw [hr]
          intro h
          have := List.mem_map_of_mem (f := fun p : Str × PVal R => lower p.1) hq
          exact hn.1 (by rw [show lower p.1 = lower q.1 from h]; exact this)
  exact (key ps [] hn (by simp)).trans (List.nil_append _)

theorem zip_map_fst (fs : List (Str × TUnit)) (vs : List R) : (fs.map Prod.fst).zip vs = (fs.zip vs).map fun p => (p.1.1, p.2) := by
  induction fs generalizing vs with
  | nil => rfl
  | cons f fs ih =>
    cases vs with
    | nil => rfl
    | cons v vs => simp [ih]

theorem TLine.parse (F : FNums R) {t : TLine} (ht : t.Ok) : elementType t.text = .ok (natVal t.typ) ∧ elementName t.text = strip t.name ∧
    (numberTexts t.text).map F.float = t.values F := by
  refine ⟨?_, ?_, ?_⟩
  · have h := elementType_exact (u := t.start ++ ("cmt(".toList ++ (t.name ++ ')' :: t.gap))) (v := t.idx) (sp := t.sp) (typ := t.typ)
      (rest := t.sep ++ ("a(".toList ++ (t.mid ++ '=' :: piecesText t.numbers t.tail)))
      (by have := ht.front; unfold TLine.front at this; simpa only [List.append_assoc, List.cons_append] using this) ht.sp ht.typ ht.typ_ne
      (by
        intro c hc
        cases hs : t.sep with
        | nil =>
          rw [hs, List.nil_append, show "a(".toList = ['a', '('] by decide, List.cons_append] at hc
          injection hc with hc
          rw [← hc]
          decide
        | cons d s =>
          rw [hs, List.cons_append] at hc
          exact ht.sep c (by rw [hs]; exact hc))
    rw [← h]
    unfold TLine.text TLine.head TLine.front
    simp only [List.append_assoc, List.cons_append]
  · have h := elementName_exact (rest := t.gap ++ ("nt".toList ++ (t.idx ++ '=' :: (t.sp ++ (t.typ ++ (t.sep ++
      ("a(".toList ++ (t.mid ++ '=' :: piecesText t.numbers t.tail)))))))) ht.start ht.name
    rw [← h]
    unfold TLine.text TLine.head TLine.front
    simp only [List.append_assoc, List.cons_append]
  · unfold TLine.text
    rw [numberTexts_line t.head t.mid _ ht.line.first ht.line.mid, numbers_exact t.numbers t.tail ht.line.ok ht.line.seps ht.line.tail]
    unfold TLine.values
    simp only [List.map_flatMap, List.map_map]
    rfl

/-- The parameters of a bend before its length is added. -/
theorem bend_length (F : FNums R) (milli degree mega : R) {t : TLine} {cls : Str} {fs : List (Str × TUnit)} (hk : kind (natVal t.typ) = some (cls, fs))
    (h2 : natVal t.typ = 8 → 2 ≤ (t.values F).length) :
    let base : Params R := (fs.zip (t.values F)).map fun p => (lower p.1.1, PVal.num (p.1.2.scale F.mul milli degree mega p.2))
    standardizeElem F ⟨strip t.name, cls, base, 0⟩ = .ok (t.element F milli degree mega) ∧
      standardizeElem F (t.element F milli degree mega) = .ok (t.element F milli degree mega) := by
  intro base
  obtain ⟨-, -, -, -, -, -, hb, h8⟩ := kind_table hk
  have hel : t.element F milli degree mega = ⟨strip t.name, cls, base ++ (match natVal t.typ, t.values F with
        | 8, angle :: r :: _ => [("l".toList, PVal.num (F.abs (F.mul (F.mul r milli) (F.mul angle degree))))]
        | _, _ => []), 0⟩ := by
    unfold TLine.element
    rw [hk]
  by_cases hn : natVal t.typ = 8
  · obtain ⟨a, r, more, hv⟩ : ∃ a r more, t.values F = a :: r :: more := by
      match hv : t.values F, h2 hn with
      | a :: r :: more, _ => exact ⟨a, r, more, rfl⟩
    have hcls := hb.2 hn
    rw [hel, hn, hv]
    simp only
    have hbase : base = ("angle".toList, .num (F.mul a degree)) :: ("r".toList, .num (F.mul r milli)) ::
        (([("INDEX".toList, TUnit.plain), ("VF".toList, TUnit.plain)].zip more).map fun p =>
          (lower p.1.1, PVal.num (p.1.2.scale F.mul milli degree mega p.2))) := by
      simp only [base]
      rw [h8 hn, hv]
      simp only [List.zip_cons_cons, List.map_cons, TUnit.scale]
      rw [show lower "ANGLE".toList = "angle".toList by decide, show lower "R".toList = "r".toList by decide]
    set more' := (([("INDEX".toList, TUnit.plain), ("VF".toList, TUnit.plain)].zip more).map fun p =>
          (lower p.1.1, PVal.num (p.1.2.scale F.mul milli degree mega p.2))) with hm
    have hml : ∀ p ∈ more', p.1 ≠ "l".toList := by
      intro p hp
      rw [hm, List.mem_map] at hp
      obtain ⟨q, hq, rfl⟩ := hp
      have := List.of_mem_zip hq
      simp only [List.mem_cons, List.not_mem_nil, or_false] at this
      rcases this.1 with h | h <;> rw [h]
      · exact (by decide : lower "INDEX".toList ≠ "l".toList)
      · exact (by decide : lower "VF".toList ≠ "l".toList)
    have hbl : ∀ p ∈ base, p.1 ≠ "l".toList := by
      rw [hbase]
      intro p hp
      rcases List.mem_cons.1 hp with rfl | hp
      · exact (by decide : "angle".toList ≠ "l".toList)
      · rcases List.mem_cons.1 hp with rfl | hp
        · exact (by decide : "r".toList ≠ "l".toList)
        · exact hml p hp
    have hga : ∀ tl : Params R, Params.getItem (base ++ tl) "angle".toList = some (.num (F.mul a degree)) := by
      intro tl
      rw [hbase, Params.getItem, show lower "angle".toList = "angle".toList by decide, List.cons_append, dget_cons, if_pos rfl]
    have hgr : ∀ tl : Params R, Params.getItem (base ++ tl) "r".toList = some (.num (F.mul r milli)) := by
      intro tl
      rw [hbase, Params.getItem, show lower "r".toList = "r".toList by decide, List.cons_append, List.cons_append, dget_cons,
        if_neg (show ¬ "angle".toList = "r".toList by decide), dget_cons, if_pos rfl]
    have hll : lower "l".toList = "l".toList := by decide
    constructor
    · have h1 := hga []
      have h2 := hgr []
      rw [List.append_nil] at h1 h2
      unfold standardizeElem
      rw [if_pos hcls]
      simp only [h1, h2, Params.setItem]
      rw [hll, dset_new _ _ _ hbl]
    · unfold standardizeElem
      rw [if_pos hcls]
      simp only [hga, hgr, Params.setItem]
      rw [hll, dset_same]
      rw [dget_some_iff]
      exact ⟨base, [], rfl, hbl⟩
  · have hcls : cls ≠ "sbend".toList := fun h => hn (hb.1 h)
    have hnil : (match natVal t.typ, t.values F with
        | 8, angle :: r :: _ => [("l".toList, PVal.num (F.abs (F.mul (F.mul r milli) (F.mul angle degree))))]
        | _, _ => ([] : Params R)) = [] := by
      split
      · rename_i h _
        exact absurd h hn
      · rfl
    rw [hel, hnil, List.append_nil]
    unfold standardizeElem
    rw [if_neg hcls]
    exact ⟨rfl, rfl⟩

theorem standardize_all (F : FNums R) (g : Nat → Elem R) : ∀ (es : List Nat) (h : Heap R), es.Nodup → (∀ e ∈ es, standardizeElem F (h.elem e) = .ok (g e)) →
    ∃ h', standardize F (es.map Item.elem) h = .ok h' ∧ h'.line = h.line ∧ h'.nElem = h.nElem ∧ h'.nLine = h.nLine ∧
      ∀ k, h'.elem k = if k ∈ es then g k else h.elem k := by
  intro es
  induction es with
  | nil => intro h _ _; exact ⟨h, rfl, rfl, rfl, rfl, fun k => by simp⟩
  | cons e es ih =>
    intro h hn hg
    rw [List.nodup_cons] at hn
    rw [List.map_cons, standardize, hg e (by simp)]
    simp only
    obtain ⟨h', h1, h2, h3, h4, h5⟩ := ih (h.setElem e (g e)) hn.2 (by
      intro k hk
      have : k ≠ e := fun he => hn.1 (he ▸ hk)
      simp only [Heap.setElem, if_neg this]
      exact hg k (List.mem_cons_of_mem _ hk))
    refine ⟨h', h1, h2, h3, h4, ?_⟩
    intro k
    rw [h5 k]
    by_cases hk : k ∈ es
    · rw [if_pos hk, if_pos (List.mem_cons_of_mem _ hk)]
    · rw [if_neg hk]
      by_cases he : k = e
      · simp [Heap.setElem, he]
      · rw [if_neg (by simp [he, hk])]
        simp [Heap.setElem, he]

/-- The heap holds exactly these elements, in this order. -/
structure Holds (h : Heap R) (xs : List (Elem R)) : Prop where
  seq : (h.line 0).seq = (List.range xs.length).map Item.elem
  count : h.nElem = xs.length
  elem : ∀ i (hi : i < xs.length), h.elem i = xs[i]
  names : ∀ n, n ∉ xs.map Elem.name → dget (h.line 0).elements n = none
  top : (h.line 0).top = 0

theorem parseElement_exact (F : FNums R) (milli degree mega : R) (hconv : F.conv = traceConv milli degree mega) {t : TLine} (ht : t.Ok)
    (hkind : (kind (natVal t.typ)).isSome) (h2 : natVal t.typ = 8 → 2 ≤ (t.values F).length) {h : Heap R} {xs : List (Elem R)} (hx : Holds h xs)
    (hstd : ∀ x ∈ xs, standardizeElem F x = .ok x) (hnew : strip t.name ∉ xs.map Elem.name) :
    ∃ h', parseElement F (some fun _ => false) t.text h = .ok h' ∧ Holds h' (xs ++ [t.element F milli degree mega]) ∧
      standardizeElem F (t.element F milli degree mega) = .ok (t.element F milli degree mega) := by
  obtain ⟨p1, p2, p3⟩ := TLine.parse F ht
  obtain ⟨⟨cls, fs⟩, hk⟩ := Option.isSome_iff_exists.1 hkind
  obtain ⟨k1, k2, k3, k4, k5, k6, k7, k8⟩ := kind_table hk
  obtain ⟨b1, b2⟩ := bend_length F milli degree mega hk h2
  set base : Params R := (fs.zip (t.values F)).map fun p => (lower p.1.1, PVal.num (p.1.2.scale F.mul milli degree mega p.2)) with hbase
  have hzn : (((fs.map Prod.fst).zip (t.values F)).map Prod.fst).Nodup := by
    rw [zip_keys]
    exact k4.sublist (List.take_sublist _ _)
  have hunits : convertUnits F ((fs.map Prod.fst).zip (t.values F)) =
      (fs.zip (t.values F)).map fun p => (p.1.1, p.1.2.scale F.mul milli degree mega p.2) := by
    rw [convertUnits_eq F _ hzn, zip_map_fst, List.map_map]
    refine List.map_congr_left ?_
    intro p hp
    simp only [Function.comp]
    rw [hconv, kind_units F.mul milli degree mega hk p.1 (List.of_mem_zip hp).1]
  have hlow : (((fs.zip (t.values F)).map fun p => (p.1.1, PVal.num (p.1.2.scale F.mul milli degree mega p.2))).map fun p => lower p.1).Nodup := by
    rw [List.map_map]
    have e : ((fs.zip (t.values F)).map ((fun p : Str × PVal R => lower p.1) ∘ fun p : (Str × TUnit) × R => (p.1.1, PVal.num (p.1.2.scale F.mul milli degree mega p.2)))) =
        ((fs.map fun f => lower f.1).zip (t.values F)).map Prod.fst := by
      rw [List.zip_map_left, List.map_map]
      rfl
    rw [e, zip_keys]
    exact k5.sublist (List.take_sublist _ _)
  have hfresh := hx.names _ hnew
  have hadd := add_fresh (⟨h, 0, []⟩ : WState R) (strip t.name) cls ((fs.zip (t.values F)).map fun p => (p.1.1, p.1.2.scale F.mul milli degree mega p.2)) hfresh (by
    intro k hk
    rw [List.map_map, List.mem_map] at hk
    obtain ⟨p, hp, rfl⟩ := hk
    exact k6 p.1 (List.of_mem_zip hp).1)
  have hmk : mkElem (strip t.name) cls ((fs.zip (t.values F)).map fun p => (p.1.1, p.1.2.scale F.mul milli degree mega p.2)) (h.line 0).top =
      ⟨strip t.name, cls, base, 0⟩ := by
    unfold mkElem
    rw [k3, hx.top, List.map_map]
    congr 1
    exact (initParams_distinct _ hlow).trans (by rw [List.map_map]; rfl)
  simp only at hadd
  rw [hmk] at hadd
  set x0 : Elem R := ⟨strip t.name, cls, base, 0⟩ with hx0
  have hadd' : h.addElement 0 (strip t.name) cls (((fs.zip (t.values F)).map fun p => (p.1.1, p.1.2.scale F.mul milli degree mega p.2)).map
      fun kv => (kv.1, PVal.num kv.2)) false = (push h x0, none) := by
    unfold WState.add at hadd
    simp only at hadd
    have e1 := congrArg (fun p : WState R × Option PyErr => p.1.heap) hadd
    have e2 := congrArg (fun p : WState R × Option PyErr => p.2) hadd
    exact Prod.ext e1 e2
  have hpe : parseElement F (some fun _ => false) t.text h = standardize F ((push h x0).line 0).seq (push h x0) := by
    unfold parseElement elementParameters
    rw [p1]
    simp only
    rw [k2, p3]
    simp only
    rw [if_neg (by decide), k1, p2, hunits]
    simp only
    rw [hadd']
  have hseq : ((push h x0).line 0).seq = (List.range (xs.length + 1)).map Item.elem := by
    simp only [push, if_true]
    rw [hx.seq, hx.count, List.range_succ, List.map_append]
    rfl
  set el := t.element F milli degree mega with hel
  obtain ⟨h', s1, s2, s3, s4, s5⟩ := standardize_all F (fun k => if hk : k < xs.length then xs[k] else el) (List.range (xs.length + 1)) (push h x0) List.nodup_range (by
    intro k hk
    rw [List.mem_range] at hk
    by_cases hkl : k < xs.length
    · have : (push h x0).elem k = xs[k] := by
        simp only [push]
        rw [if_neg (by rw [hx.count]; omega), hx.elem k hkl]
      rw [this, dif_pos hkl]
      exact hstd _ (List.getElem_mem hkl)
    · have : (push h x0).elem k = x0 := by
        simp only [push]
        rw [if_pos (by rw [hx.count]; omega)]
      rw [this, dif_neg hkl]
      exact b1)
  refine ⟨h', ?_, ?_, b2⟩
  · rw [hpe, hseq]
    exact s1
  · refine ⟨?_, ?_, ?_, ?_, ?_⟩
    · rw [s2, hseq]
      simp
    · rw [s3]
      simp [push, hx.count]
    · intro i hi
      rw [List.length_append, List.length_singleton] at hi
      rw [s5, if_pos (List.mem_range.2 hi)]
      by_cases hil : i < xs.length
      · rw [dif_pos hil, List.getElem_append_left hil]
      · rw [dif_neg hil, List.getElem_append_right (by omega)]
        simp
    · intro n hn
      rw [s2]
      have hname : el.name = strip t.name := by
        rw [hel]
        unfold TLine.element
        rw [hk]
      rw [List.map_append, List.mem_append, List.map_singleton, List.mem_singleton, hname] at hn
      push Not at hn
      simp only [push, if_true]
      rw [dget_dset, if_neg (by rw [hx0]; exact hn.2)]
      exact hx.names n hn.1
    · rw [s2]
      simp only [push, if_true]
      exact hx.top

theorem element_name (F : FNums R) (milli degree mega : R) {t : TLine} (hk : (kind (natVal t.typ)).isSome) : (t.element F milli degree mega).name = strip t.name := by
  obtain ⟨⟨cls, fs⟩, hk⟩ := Option.isSome_iff_exists.1 hk
  unfold TLine.element
  rw [hk]

theorem parseLines_exact (F : FNums R) (milli degree mega : R) (hconv : F.conv = traceConv milli degree mega) : ∀ (ts : List TLine) (h : Heap R) (xs : List (Elem R)),
    (∀ t ∈ ts, t.Ok) → (∀ t ∈ ts, (kind (natVal t.typ)).isSome) → (∀ t ∈ ts, natVal t.typ = 8 → 2 ≤ (t.values F).length) → Holds h xs →
    (∀ x ∈ xs, standardizeElem F x = .ok x) → (xs.map Elem.name ++ ts.map fun t => strip t.name).Nodup →
    ∃ h', parseLines F (some fun _ => false) (ts.map TLine.text) h = .ok h' ∧ Holds h' (xs ++ ts.map (TLine.element F milli degree mega)) := by
  intro ts
  induction ts with
  | nil => intro h xs _ _ _ hx _ _; exact ⟨h, rfl, by simpa using hx⟩
  | cons t ts ih =>
    intro h xs hok hk hb hx hstd hnd
    have hnew : strip t.name ∉ xs.map Elem.name := by
      intro hm
      rw [List.map_cons, List.nodup_append] at hnd
      exact hnd.2.2 _ hm _ (by simp) rfl
    obtain ⟨h1, e1, e2, e3⟩ := parseElement_exact F milli degree mega hconv (hok t (by simp)) (hk t (by simp)) (hb t (by simp)) hx hstd hnew
    obtain ⟨h2, f1, f2⟩ := ih h1 (xs ++ [t.element F milli degree mega]) (fun x hx => hok x (List.mem_cons_of_mem _ hx)) (fun x hx => hk x (List.mem_cons_of_mem _ hx))
      (fun x hx => hb x (List.mem_cons_of_mem _ hx)) e2 (by
        intro x hx
        rcases List.mem_append.1 hx with hx | hx
        · exact hstd x hx
        · rw [List.mem_singleton] at hx
          rw [hx]
          exact e3) (by
        rw [List.map_append, List.map_singleton, element_name F milli degree mega (hk t (by simp)), List.append_assoc]
        exact hnd)
    refine ⟨h2, ?_, ?_⟩
    · rw [List.map_cons, parseLines, e1]
      exact f1
    · rw [List.map_cons]
      rw [List.append_assoc] at f2
      exact f2

theorem holds_init (name : Str) : Holds (Heap.init (some name) : Heap R) [] :=
  ⟨rfl, rfl, fun i hi => absurd hi (by simp), fun n _ => rfl, rfl⟩

theorem hasSub_cmt (t : TLine) : hasSub "cmt".toList t.text = true := by
  have h : ∀ (a b : Str), hasSub "cmt".toList (a ++ ("cmt".toList ++ b)) = true := by
    intro a b
    exact hasSub_append_left _ _ _ (hasSub_prefix _ _)
  have := h t.start ('(' :: (t.name ++ ')' :: (t.gap ++ ("nt".toList ++ (t.idx ++ '=' :: (t.sp ++ (t.typ ++ (t.sep ++
      ("a(".toList ++ (t.mid ++ '=' :: piecesText t.numbers t.tail))))))))))
  rw [← this]
  congr 1
  unfold TLine.text TLine.head TLine.front
  rw [show "cmt(".toList = "cmt".toList ++ ['('] by decide]
  simp only [List.append_assoc, List.cons_append, List.nil_append]

/-- **C129, what is true of it.** With an empty table of handlers, every entry but the last becomes an element with its name, class and numbers
in SI units; a bend gets the arc length of its radius and angle. Missing: the class `Trace3d` has no table of handlers, see `entries_fails`, and
the last entry is lost. -/
theorem trace_file_partial (F : FNums R) (milli degree mega : R) (hconv : F.conv = traceConv milli degree mega) (name : Str) (file : List Str) (ts : List TLine) (last : TLine)
    (hs : sanitize file = .ok ((ts ++ [last]).map TLine.text)) (hok : ∀ t ∈ ts, t.Ok) (hk : ∀ t ∈ ts, (kind (natVal t.typ)).isSome)
    (hb : ∀ t ∈ ts, natVal t.typ = 8 → 2 ≤ (t.values F).length) (hnd : (ts.map fun t => strip t.name).Nodup) :
    ∃ (h : Heap R) (es : List Nat), parseFile F (some fun _ => false) name file = .ok h ∧ (h.line 0).seq = es.map Item.elem ∧
      es.map h.elem = ts.map (TLine.element F milli degree mega) := by
  obtain ⟨h, h1, h2⟩ := parseLines_exact F milli degree mega hconv ts (Heap.init (some name)) [] hok hk hb (holds_init name) (by simp) (by simpa using hnd)
  refine ⟨h, List.range ts.length, ?_, ?_, ?_⟩
  · have hcmt : cmtLines ((ts ++ [last]).map TLine.text) = List.range (ts.length + 1) := by
      unfold cmtLines
      rw [List.length_map, List.length_append, List.length_singleton, List.filter_eq_self]
      intro i hi
      rw [List.mem_range] at hi
      rw [List.getD_eq_getElem?_getD, List.getElem?_eq_getElem (by simpa using hi), Option.getD_some, List.getElem_map]
      exact hasSub_cmt _
    have hr : List.range (ts.length + 1) = 0 :: (List.range ts.length).map (· + 1) := by rw [List.range_succ_eq_map]
    unfold parseFile
    rw [hs]
    simp only
    split
    · rename_i he
      rw [hcmt, hr] at he
      exact absurd he (by simp)
    · rename_i i is he
      have hi : i = 0 := by rw [hcmt, hr] at he; injection he with he _; exact he.symm
      have hlast : (i :: is).getLast (by simp) = ts.length := by
        have : (i :: is).getLast? = some ts.length := by rw [← he, hcmt, List.getLast?_range, if_neg (by omega)]; rfl
        rw [List.getLast?_eq_some_getLast (by simp)] at this
        injection this
      rw [hlast, hi, List.drop_zero, List.map_append, List.take_append_of_le_length (by simp), ← List.length_map (f := TLine.text), List.take_length]
      exact h1
  · simpa using h2.seq
  · rw [List.nil_append] at h2
    refine List.ext_getElem (by simp) ?_
    intro i hi _
    simp only [List.length_map, List.length_range] at hi
    rw [List.getElem_map, List.getElem_map, List.getElem_range, h2.elem i (by simpa using hi), List.getElem_map]

/-- An entry with an unknown type number is refused. -/
theorem trace_type_unknown (F : FNums R) (handlers : Option (Nat → Bool)) {t : TLine} (ht : t.Ok) (hk : kind (natVal t.typ) = none) (h : Heap R) :
    parseElement F handlers t.text h = .error .keyError := by
  unfold parseElement elementParameters
  rw [(TLine.parse F ht).1]
  simp only
  rw [kind_none hk]

/-! ## Examples -/

/-- Numbers for the examples; the value of a text is its length. -/
def exUnits : FNums Int := { float := fun s => s.length, mul := fun a b => a * b, abs := fun a => a.natAbs, conv := traceConv 2 (-3) 5 }

/-- A number without exponent. -/
def exNumeral (int frac : String) : Numeral := ⟨.none, int.toList, some frac.toList, none⟩

/-- An entry `cmt(name) nt(i)=typ, a(1,i)= …`. -/
def exEntry (name typ : String) (numbers : List (String × String)) : TLine :=
  { start := [], name := name.toList, gap := " ".toList, idx := "(7)".toList, sp := [], typ := typ.toList, sep := ", ".toList, mid := "1,7)".toList
    numbers := numbers.map fun p => (" ".toList, exNumeral p.1 p.2), tail := " ".toList }

/-- A drift, a bend and a quadrupole. -/
def exEntries : List TLine :=
  [exEntry " d1 " "1" [("100", "0")], exEntry "b1" "8" [("20", "5"), ("1", "0"), ("0", "125"), ("1", "0")], exEntry "q1" "3" [("1", "25"), ("30", "0")]]

/-- The same with a last entry, a comment and capital letters. -/
def exTraceFile : List Str :=
  ["; a comment\n".toList, "CMT( d1 ) NT(7)=1, A(1,7)= 100.0 ; drift\n".toList, "cmt(b1) nt(7)=8, a(1,7)= 20.5 1.0 0.125 1.0 ;\n".toList,
   "cmt(q1) nt(7)=3, a(1,7)= 1.25 30.0 ;\n".toList, "\n".toList, "cmt(end) nt(7)=1, a(1,7)= 1.0 ;\n".toList]

/-- An entry of a type that is not in the table. -/
def exOther : TLine := exEntry "s1" "4" [("1", "0")]

theorem exEntries_ok : ∀ t ∈ exOther :: exEntries, t.Ok := by
  have h : ∀ t ∈ exOther :: exEntries, Blank t.start ∧ ')' ∉ t.name ∧ '=' ∉ t.front ∧ (∀ c ∈ t.sp, c.isDigit = false) ∧ (∀ c ∈ t.typ, c.isDigit = true) ∧ t.typ ≠ [] ∧
      ((t.sep.all fun c => !c.isDigit) = true) ∧ (∀ i < t.head.length, ¬ "a(".toList <+: t.text.drop i) ∧ '=' ∉ t.mid ∧
      (∀ p ∈ t.numbers, (∀ c ∈ p.2.int, c.isDigit = true) ∧ (∀ c ∈ p.2.frac.getD [], c.isDigit = true) ∧ p.2.int ≠ [] ∧ p.2.exp = none) ∧
      (∀ p ∈ t.numbers, p.1 ≠ [] ∧ ∀ c ∈ p.1, SepChar c) ∧ (∀ c ∈ t.tail, SepChar c) := by
    unfold Blank SepChar
    decide +kernel
  intro t ht
  obtain ⟨a1, a2, a3, a4, a5, a6, a7, a8, a9, b1, b2, b3⟩ := h t ht
  refine ⟨a1, a2, a3, a4, a5, a6, ?_, ⟨a8, a9, ?_, b2, b3⟩⟩
  · intro c hc
    have := List.all_eq_true.1 a7 c (List.mem_of_head? hc)
    simpa using this
  · intro p hp
    obtain ⟨c1, c2, c3, c4⟩ := b1 p hp
    refine ⟨c1, ?_, .inl c3, ?_⟩
    · intro f hf
      rw [hf] at c2
      exact c2
    · intro m s d he
      rw [c4] at he
      exact absurd he (by simp)

/-- Three elements in SI units; the bend has the length of its arc. -/
example : ∃ (h : Heap Int) (es : List Nat), parseFile exUnits (some fun _ => false) "b".toList exTraceFile = .ok h ∧ (h.line 0).seq = es.map Item.elem ∧
    es.map h.elem =
      [⟨"d1".toList, "drift".toList, [("l".toList, .num 10)], 0⟩,
       ⟨"b1".toList, "sbend".toList, [("angle".toList, .num (-12)), ("r".toList, .num 6), ("index".toList, .num 5), ("vf".toList, .num 3),
         ("l".toList, .num 72)], 0⟩,
       ⟨"q1".toList, "quadrupole".toList, [("k1".toList, .num 4), ("l".toList, .num 8)], 0⟩] := by
  obtain ⟨h, es, h1, h2, h3⟩ := trace_file_partial exUnits 2 (-3) 5 rfl "b".toList exTraceFile exEntries (exEntry "end" "1" [("1", "0")]) (by decide +kernel)
    (fun t ht => exEntries_ok t (List.mem_cons_of_mem _ ht)) (by decide +kernel) (by decide +kernel) (by decide +kernel)
  exact ⟨h, es, h1, h2, h3.trans (by decide +kernel)⟩

/-- The parenthesis is missing: the name ends with the numbers of the line. -/
example : elementName " cmt(d1 nt1=1,\n".toList = "d1 nt1=1,".toList :=
  (trace_name_unclosed (start := " ".toList) (rest := "d1 nt1=1,\n".toList) (by unfold Blank; decide) (by decide)).trans (by decide)

/-- A type that is not in the table. -/
example (h : Heap Int) : parseElement exUnits none "cmt(s1) nt(7)=4, a(1,7)= 1.0 ".toList h = .error .keyError := by
  rw [show "cmt(s1) nt(7)=4, a(1,7)= 1.0 ".toList = exOther.text by decide +kernel]
  exact trace_type_unknown exUnits none (exEntries_ok _ (by simp)) (by decide +kernel) h

end Verif.Trace
