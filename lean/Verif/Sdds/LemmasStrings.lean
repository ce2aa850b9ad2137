import Verif.Sdds.PropsRead

/-!
# Lemmas on the binary reader: strings of every kind

As `LemmasRead`, `LemmasRead2` and `LemmasRead3`, without the assumption that a string can be
given back.
-/

set_option linter.unusedSimpArgs false
set_option linter.unusedVariables false

namespace Verif.Sdds

/-- The value can be stored under the type. -/
def Stored : SType → Val → Prop
  | .num t, .num t' x => t = t' ∧ x < 256 ^ t.size
  | .str, .str s => s.length < 2147483648
  | _, _ => False

/-- The page can be stored with the given layout; strings are arbitrary. -/
def PageStored (l : Layout) (pg : Page) : Prop :=
  List.Forall₂ (fun f v => Stored f.2 v) l.params pg.params ∧
  (∀ row ∈ pg.rows, List.Forall₂ (fun f v => Stored f.2 v) l.cols row) ∧
  pg.rows.length < 2147483648

/-- A string as `read` shows it: cut to `max_string_length` characters, without the NULs at the
end. -/
def shown (m : Nat) : Val → Val
  | .num t x => .num t x
  | .str s => .str (stripNul ((stripNul s).take m))

/-- All bytes below 128. -/
def AsciiVal : Val → Prop
  | .num _ _ => True
  | .str s => ∀ b ∈ s, b < 128

instance (v : Val) : Decidable (AsciiVal v) := by cases v <;> (unfold AsciiVal; infer_instance)

/-- A string as numpy shows it. -/
def seen : Val → Val
  | .num t x => .num t x
  | .str s => .str (stripNul s)

def seenF (f : Str × Val) : Str × Val := (f.1, seen f.2)
def shownF (m : Nat) (f : Str × Val) : Str × Val := (f.1, shown m f.2)

def Arr.seen (a : Arr) : Arr := ⟨a.dt, a.rows.map (·.map seenF)⟩

def ReadOk : Val → Prop
  | .num t x => x < 256 ^ t.size
  | .str s => s.length < 2147483648

theorem decodeKey_any {v : Val} (h : ReadOk v) : decodeKey (valKey v) (rawVal v) = seen v := by
  cases v with
  | num t x => simp only [valKey, rawVal, decodeKey, seen]; rw [leNat_leBytes_of_lt h]
  | str s => rfl

theorem decodeRec_any (fs : List (Str × Val)) (h : ∀ f ∈ fs, ReadOk f.2) (rest : Bytes) :
    decodeRec (fDt fs) (fRaw fs ++ rest) = fs.map seenF := by
  induction fs with
  | nil => rfl
  | cons f fs ih =>
    have e : fRaw (f :: fs) ++ rest = rawVal f.2 ++ (fRaw fs ++ rest) := by simp [fRaw]
    have e2 : fDt (f :: fs) = (f.1, valKey f.2) :: fDt fs := rfl
    rw [e, e2, decodeRec]
    simp only [keyWidth_valKey, List.take_left, List.drop_left]
    rw [ih fun f hf => h f (by simp [hf]), decodeKey_any (h f (by simp))]
    rfl

theorem Reader.readRec_any {r : Reader} {p : Pos} (hp : r.PosOk p) (fs : List (Str × Val))
    (hn : (fs.map Prod.fst).Nodup) (h : ∀ f ∈ fs, ReadOk f.2) {rest : Bytes}
    (hf : r.file.drop (r.cur p) = fRaw fs ++ rest) (hc : r.cur p ≤ r.file.length) :
    r.readArr (fDt fs) 1 p = if (fRaw fs).length = 0 then .error .valueError
      else .ok (Arr.seen ⟨fDt fs, [fs]⟩, r.adv p (fRaw fs).length) := by
  by_cases h0 : (fRaw fs).length = 0
  · rw [if_pos h0]
    have hs := itemSize_fDt fs hn
    unfold Reader.readArr
    cases hb : r.buffer with
    | true => simp only [if_true, frombuffer, hs, bind, Except.bind, h0]
    | false => simp only [Bool.false_eq_true, if_false, fromfile, hs, bind, Except.bind, h0, if_true]
  · rw [if_neg h0, Reader.readArr_ok hp (itemSize_fDt fs hn) (by omega) hf (by simp) hc, decodeRows_one,
      decodeRec_any fs h, Nat.mul_one]
    rfl

theorem seenF_lenField (s : Bytes) : seenF (lenField s) = lenField s := rfl

theorem Reader.getParams_any {r : Reader} (fs : List (Str × Val)) :
    ∀ (acc : List Arr) (p : Pos), r.PosOk p → (∀ f ∈ fs, ReadOk f.2) →
    (∀ f ∈ fs, f.1 ≠ recLenName) →
    (∀ f ∈ fs, (∃ s, f.2 = .str s) → r.varLen = true) →
    noLen acc.getLast? →
    ∀ rest, r.file.drop (r.cur p) = encFs fs ++ rest → r.cur p ≤ r.file.length →
    r.getParams (paramDks fs) acc p = if Val.str [] ∈ fs.map Prod.snd then .error .valueError
      else .ok (acc ++ (paramArrs fs).map Arr.seen, r.adv p (encFs fs).length) := by
  induction fs with
  | nil =>
    intro acc p hp h hn hv hl rest hf hc
    simp [paramDks, paramArrs, Reader.getParams, encFs, Reader.adv_zero]
  | cons f fs ih =>
    intro acc p hp h hn hv hl rest hf hc
    obtain ⟨n, v⟩ := f
    have hn0 : n ≠ recLenName := hn (n, v) (by simp)
    cases v with
    | num t x =>
      have hok : ReadOk (.num t x) := h (n, .num t x) (by simp)
      have e : encFs ((n, .num t x) :: fs) = fRaw [(n, .num t x)] ++ encFs fs := by
        simp [encFs, fRaw, encodeVal, rawVal]
      rw [e, List.append_assoc] at hf
      simp only [paramDks, paramArrs, Reader.getParams, resolve_noLen hl, bind, Except.bind]
      have hr := Reader.readRec_any hp [(n, .num t x)] (by simp) (by simpa using hok) hf hc
      have hpos : (fRaw [(n, Val.num t x)]).length ≠ 0 :=
        (fRaw_pos (f := (n, .num t x)) (by simp) (by simp)).ne'
      rw [if_neg hpos] at hr
      have edt : fDt [(n, .num t x)] = [(n, .num t)] := rfl
      rw [edt] at hr
      rw [hr]
      simp only
      have hdrop : r.file.drop (r.cur (r.adv p (fRaw [(n, Val.num t x)]).length)) = encFs fs ++ rest := by
        rw [Reader.cur_adv, ← List.drop_drop, hf, List.drop_left]
      have hle : r.cur (r.adv p (fRaw [(n, Val.num t x)]).length) ≤ r.file.length := by
        have := congrArg List.length hf
        rw [List.length_drop, List.length_append] at this
        rw [Reader.cur_adv]; omega
      rw [ih _ _ (Reader.adv_ok hp _) (fun f hf => h f (by simp [hf])) (fun f hf => hn f (by simp [hf]))
        (fun f hf => hv f (by simp [hf])) ?_ rest hdrop hle]
      · simp only [List.append_assoc, List.singleton_append, Reader.adv_adv, List.map_cons, List.mem_cons]
        rw [e, List.length_append]
        simp only [reduceCtorEq, false_or]
        rfl
      · intro a ha
        rw [List.getLast?_concat] at ha
        injection ha with ha
        subst ha
        simp [hn0.symm, Arr.seen]
    | str s =>
      have hok : ReadOk (.str s) := h (n, .str s) (by simp)
      have hvl : r.varLen = true := hv (n, .str s) (by simp) ⟨s, rfl⟩
      have e : encFs ((n, .str s) :: fs) = fRaw [lenField s] ++ (fRaw [(n, .str s)] ++ encFs fs) := by
        simp [encFs, fRaw, encodeVal, rawVal, lenField, FType.size]
      rw [e] at hf
      have hlenok : ReadOk (lenField s).2 := by
        have : s.length < 2147483648 := hok
        simp only [ReadOk, lenField, FType.size]
        norm_num; omega
      simp only [paramDks, paramArrs, Reader.getParams, resolve_noLen hl, bind, Except.bind]
      rw [List.append_assoc] at hf
      have hr := Reader.readRec_any hp [lenField s] (by simp) (by simpa using hlenok) hf hc
      have hpos : (fRaw [lenField s]).length ≠ 0 :=
        (fRaw_pos (f := lenField s) (by simp) (by simp [lenField])).ne'
      rw [if_neg hpos] at hr
      have edt : fDt [lenField s] = [recLenKey] := rfl
      rw [edt] at hr
      rw [hr]
      simp only [List.getLast?_concat]
      have hdrop : r.file.drop (r.cur (r.adv p (fRaw [lenField s]).length)) =
          fRaw [(n, .str s)] ++ (encFs fs ++ rest) := by
        rw [Reader.cur_adv, ← List.drop_drop, hf, List.drop_left, List.append_assoc]
      have hle : r.cur (r.adv p (fRaw [lenField s]).length) ≤ r.file.length := by
        have := congrArg List.length hf
        rw [List.length_drop, List.length_append] at this
        rw [Reader.cur_adv]; omega
      have hres : resolve r.varLen (some (Arr.seen ⟨[recLenKey], [[lenField s]]⟩)) [(n, .strRaw)] =
          .ok [(n, .strN s.length)] := by
        rw [hvl]
        refine resolve_len (a := Arr.seen ⟨[recLenKey], [[lenField s]]⟩) (rec := [lenField s]) (l := [])
          hok ?_ rfl ?_ n []
        · simp [recLenKey, Arr.seen]
        · simp [recField, lenField]
      rw [hres]
      simp only
      have hr2 := Reader.readRec_any (Reader.adv_ok hp _) [(n, .str s)] (by simp)
        (by simpa using hok) hdrop hle
      have edt2 : fDt [(n, .str s)] = [(n, .strN s.length)] := rfl
      rw [edt2] at hr2
      rw [hr2]
      by_cases hs0 : s = []
      · subst hs0
        simp [fRaw, rawVal]
      rw [if_neg (by simpa [fRaw, rawVal] using hs0)]
      simp only
      have hdrop2 : r.file.drop (r.cur (r.adv (r.adv p (fRaw [lenField s]).length)
          (fRaw [(n, Val.str s)]).length)) = encFs fs ++ rest := by
        rw [Reader.cur_adv, ← List.drop_drop, hdrop, List.drop_left]
      have hle2 : r.cur (r.adv (r.adv p (fRaw [lenField s]).length)
          (fRaw [(n, Val.str s)]).length) ≤ r.file.length := by
        have := congrArg List.length hdrop
        rw [List.length_drop, List.length_append] at this
        rw [Reader.cur_adv]; omega
      rw [ih _ _ (Reader.adv_ok (Reader.adv_ok hp _) _) (fun f hf => h f (by simp [hf]))
        (fun f hf => hn f (by simp [hf])) (fun f hf => hv f (by simp [hf])) ?_ rest hdrop2 hle2]
      · simp only [List.append_assoc, List.singleton_append, Reader.adv_adv, List.map_cons, List.mem_cons,
          List.cons_append, List.nil_append]
        rw [e]
        simp only [Val.str.injEq, Ne.symm hs0, false_or, List.length_append, Nat.add_assoc]
        rfl
      · intro a ha
        rw [List.getLast?_concat] at ha
        injection ha with ha
        subst ha
        simp [hn0.symm, Arr.seen]

theorem fRaw_group {cur : List (Str × Val)} (hne : cur ≠ []) (ht : ∀ f ∈ cur.tail, ∃ t x, f.2 = .num t x) :
    (fRaw cur).length = 0 ↔ (cur.getLast?.map Prod.snd) = some (.str []) := by
  constructor
  · intro h0
    rw [List.getLast?_eq_some_getLast hne, Option.map_some]
    by_contra hs
    have := fRaw_pos (List.getLast_mem hne) (fun he => hs (by rw [he]))
    omega
  · intro h
    cases cur with
    | nil => exact absurd rfl hne
    | cons f cur =>
      cases hcur : cur with
      | nil =>
        subst hcur
        simp only [List.getLast?_singleton, Option.map_some, Option.some.injEq] at h
        simp [fRaw, h, rawVal]
      | cons g tl =>
        exfalso
        have hne' : cur ≠ [] := by rw [hcur]; simp
        rw [List.getLast?_eq_some_getLast hne, Option.map_some, List.getLast_cons hne'] at h
        obtain ⟨t, x, hx⟩ := ht (cur.getLast hne') (List.getLast_mem hne')
        rw [hx] at h
        simp at h

theorem Reader.getCols_row_any {r : Reader} (fs : List (Str × Val)) :
    ∀ (cur : Dtype) (curF : List (Str × Val)) (acc : List Arr) (p : Pos), r.PosOk p →
    (∀ f ∈ curF ++ fs, ReadOk f.2) → (∀ f ∈ curF ++ fs, f.1 ≠ recLenName) →
    ((curF ++ fs).map Prod.fst).Nodup →
    (∀ f ∈ fs, (∃ s, f.2 = .str s) → r.varLen = true) →
    (∀ more, resolve r.varLen acc.getLast? (cur ++ more) = .ok (fDt curF ++ more)) →
    curF ++ fs ≠ [] → (∀ f ∈ curF.tail, ∃ t x, f.2 = Val.num t x) →
    ∀ rest, r.file.drop (r.cur p) = fRaw curF ++ (encFs fs ++ rest) → r.cur p ≤ r.file.length →
    r.getParams (colDks fs cur) acc p =
      if (curF ++ fs).getLast?.map Prod.snd = some (.str []) then .error .valueError
      else .ok (acc ++ (colArrs fs curF).map Arr.seen, r.adv p ((fRaw curF).length + (encFs fs).length)) := by
  induction fs with
  | nil =>
    intro cur curF acc p hp h hn hd hv hres hne ht rest hf hc
    have h1 := hres []
    rw [List.append_nil, List.append_nil] at h1
    simp only [List.append_nil] at h hn hd hne
    simp only [colDks, colArrs, Reader.getParams, h1, bind, Except.bind, List.append_nil]
    rw [Reader.readRec_any hp curF hd h (rest := rest) (by simpa [encFs] using hf) hc]
    by_cases h0 : (fRaw curF).length = 0
    · rw [if_pos h0, if_pos ((fRaw_group hne ht).mp h0)]
    · rw [if_neg h0, if_neg (fun hx => h0 ((fRaw_group hne ht).mpr hx))]
      simp [encFs]
  | cons f fs ih =>
    intro cur curF acc p hp h hn hd hv hres hne ht rest hf hc
    obtain ⟨n, v⟩ := f
    cases v with
    | num t x =>
      simp only [colDks, colArrs]
      have e : encFs ((n, .num t x) :: fs) = fRaw [(n, .num t x)] ++ encFs fs := by
        simp [encFs, fRaw, encodeVal, rawVal]
      have hres' : ∀ more, resolve r.varLen acc.getLast? (cur ++ [(n, .num t)] ++ more) =
          .ok (fDt (curF ++ [(n, .num t x)]) ++ more) := by
        intro more
        rw [List.append_assoc, hres, fDt_append, List.append_assoc]
        rfl
      rw [ih (cur ++ [(n, KType.num t)]) (curF ++ [(n, .num t x)]) acc p hp (by simpa using h)
        (by simpa using hn) (by simpa using hd) (fun f hf => hv f (by simp [hf])) hres' (by simp)
        (by
          intro f hf
          cases curF with
          | nil => simp at hf
          | cons g tl =>
            simp only [List.cons_append, List.tail_cons, List.mem_append, List.mem_singleton] at hf
            rcases hf with hf | rfl
            · exact ht f (by simpa using hf)
            · exact ⟨t, x, rfl⟩) rest
        (by rw [hf, e, fRaw_append]; simp) hc]
      rw [e, fRaw_append]
      simp only [List.length_append, Nat.add_assoc, List.append_assoc, List.singleton_append]
    | str s =>
      have hok : ReadOk (.str s) := h (n, .str s) (by simp)
      have hvl : r.varLen = true := hv (n, .str s) (by simp) ⟨s, rfl⟩
      have e : encFs ((n, .str s) :: fs) = fRaw [lenField s] ++ (fRaw [(n, .str s)] ++ encFs fs) := by
        simp [encFs, fRaw, encodeVal, rawVal, lenField, FType.size]
      have hlenok : ReadOk (lenField s).2 := by
        have : s.length < 2147483648 := hok
        simp only [ReadOk, lenField, FType.size]
        norm_num; omega
      have hcur : ∀ f ∈ curF, f.1 ≠ recLenName := fun f hf => hn f (by simp [hf])
      have hf' : r.file.drop (r.cur p) = fRaw (curF ++ [lenField s]) ++
          (fRaw [(n, .str s)] ++ (encFs fs ++ rest)) := by
        rw [hf, e, fRaw_append]; simp
      have hd2 : ((curF ++ [lenField s]).map Prod.fst).Nodup := by
        rw [List.map_append, List.nodup_append]
        rw [List.map_append, List.nodup_append] at hd
        refine ⟨hd.1, by simp, ?_⟩
        intro a ha b hb
        obtain ⟨f, hf, rfl⟩ := List.mem_map.mp ha
        have : b = recLenName := by simpa [lenField] using hb
        rw [this]
        exact hcur f hf
      have hr := Reader.readRec_any hp (curF ++ [lenField s]) hd2
        (by
          intro f hf
          rcases List.mem_append.mp hf with hf | hf
          · exact h f (by simp [hf])
          · rw [List.mem_singleton.mp hf]; exact hlenok) hf' hc
      have hpos : (fRaw (curF ++ [lenField s])).length ≠ 0 :=
        (fRaw_pos (f := lenField s) (by simp) (by simp [lenField])).ne'
      rw [if_neg hpos] at hr
      have edt : fDt (curF ++ [lenField s]) = fDt curF ++ [recLenKey] := by rw [fDt_append]; rfl
      simp only [colDks, colArrs, Reader.getParams, hres, bind, Except.bind]
      rw [← edt, hr]
      simp only
      have hdrop : r.file.drop (r.cur (r.adv p (fRaw (curF ++ [lenField s])).length)) =
          fRaw [(n, .str s)] ++ (encFs fs ++ rest) := by
        rw [Reader.cur_adv, ← List.drop_drop, hf', List.drop_left]
      have hle : r.cur (r.adv p (fRaw (curF ++ [lenField s])).length) ≤ r.file.length := by
        have := congrArg List.length hf'
        rw [List.length_drop, List.length_append] at this
        rw [Reader.cur_adv]; omega
      rw [ih [(n, KType.strRaw)] [(n, Val.str s)] _ _ (Reader.adv_ok hp _) (fun f hf => h f (by
          rw [List.mem_append] at hf ⊢
          rcases hf with hf | hf
          · right; rw [List.mem_singleton.mp hf]; simp
          · right; simp [hf])) (fun f hf => hn f (by
          rw [List.mem_append] at hf ⊢
          rcases hf with hf | hf
          · right; rw [List.mem_singleton.mp hf]; simp
          · right; simp [hf])) (by
          rw [List.map_append, List.nodup_append] at hd
          exact hd.2.1) (fun f hf => hv f (by simp [hf])) ?_ (by simp) (by simp) rest hdrop hle]
      · have el : (curF ++ (n, Val.str s) :: fs).getLast? = ([(n, Val.str s)] ++ fs).getLast? := by
          rw [List.getLast?_append_of_ne_nil _ (by simp)]
          rfl
        rw [el]
        simp only [List.append_assoc, List.singleton_append, Reader.adv_adv, List.map_cons]
        rw [e, fRaw_append]
        simp only [List.length_append, Nat.add_assoc]
      · intro more
        rw [hvl, List.getLast?_concat]
        refine resolve_len (a := Arr.seen ⟨fDt (curF ++ [lenField s]), [curF ++ [lenField s]]⟩)
          (rec := (curF ++ [lenField s]).map seenF) (l := []) hok ?_ rfl ?_ n more
        · simp only [Arr.seen]; rw [edt]; simp [recLenKey]
        · rw [List.map_append]
          refine recField_last (curF.map seenF) _ ?_
          intro f hf
          obtain ⟨g, hg, rfl⟩ := List.mem_map.mp hf
          exact hcur g hg

theorem stripNul_ascii (s : Bytes) : (∀ b ∈ stripNul s, b < 128) ↔ ∀ b ∈ s, b < 128 := by
  unfold stripNul
  constructor
  · intro h b hb
    have hb' : b ∈ s.reverse := List.mem_reverse.mpr hb
    rw [← List.takeWhile_append_dropWhile (p := fun x => x == 0) (l := s.reverse), List.mem_append] at hb'
    rcases hb' with hb' | hb'
    · have := List.all_eq_true.mp (List.all_takeWhile (p := fun x : UInt8 => x == 0) (l := s.reverse)) b hb'
      rw [beq_iff_eq] at this
      rw [this]; decide
    · exact h b (List.mem_reverse.mpr hb')
  · intro h b hb
    exact h b (List.mem_reverse.mp ((List.dropWhile_sublist _).subset (List.mem_reverse.mp hb)))

theorem castVal_any (m : Nat) (v : Val) :
    castVal m (seen v) = if AsciiVal v then .ok (shown m v) else .error .unicodeError := by
  cases v with
  | num t x => rfl
  | str s =>
    by_cases h : AsciiVal (.str s)
    · rw [if_pos h]
      simp only [castVal, seen, shown]
      rw [if_pos (by simpa using (stripNul_ascii s).mpr h)]
    · rw [if_neg h]
      simp only [castVal, seen, shown]
      rw [if_neg (by
        intro hx
        exact h ((stripNul_ascii s).mp (by simpa using hx)))]

/-- A list of casts: all of them, or the error. -/
theorem mapM_cast (m : Nat) (fs : List (Str × Val)) :
    (fs.map seenF).mapM (fun kv => do let v ← castVal m kv.2; Except.ok (kv.1, v)) =
      if ∀ f ∈ fs, AsciiVal f.2 then .ok (fs.map (shownF m)) else .error .unicodeError := by
  induction fs with
  | nil => simp [pure, Except.pure]
  | cons f fs ih =>
    rw [List.map_cons, List.mapM_cons, ih]
    have : (seenF f).2 = seen f.2 := rfl
    rw [this, castVal_any]
    by_cases h : AsciiVal f.2
    · rw [if_pos h]
      by_cases h2 : ∀ f ∈ fs, AsciiVal f.2
      · rw [if_pos h2, if_pos (show ∀ g ∈ f :: fs, AsciiVal g.2 from List.forall_mem_cons.mpr ⟨h, h2⟩)]
        rfl
      · rw [if_neg h2, if_neg (fun hx => h2 fun g hg => hx g (by simp [hg]))]
        rfl
    · rw [if_neg h, if_neg (show ¬ ∀ g ∈ f :: fs, AsciiVal g.2 from fun hx => h (hx f (by simp)))]
      rfl

theorem mergeRec_any {m : Nat} (fs : List (Str × Val)) (hn : ∀ f ∈ fs, f.1 ≠ recLenName) :
    mergeRec m (fs.map seenF) =
      if ∀ f ∈ fs, AsciiVal f.2 then .ok (fs.map (shownF m)) else .error .unicodeError := by
  unfold mergeRec
  rw [List.filter_eq_self.mpr, mapM_cast]
  intro g hg
  obtain ⟨f, hf, rfl⟩ := List.mem_map.mp hg
  exact decide_eq_true (hn f hf)

theorem mergeOne_any {m : Nat} (fs : List (Str × Val)) (hn : ∀ f ∈ fs, f.1 ≠ recLenName) :
    mergeOne m (Arr.seen ⟨fDt fs, [fs]⟩) =
      if ∀ f ∈ fs, AsciiVal f.2 then .ok (fs.map (shownF m)) else .error .unicodeError := by
  unfold mergeOne Arr.seen
  simp only [fDt_names]
  cases fs with
  | nil => simp
  | cons f fs =>
    have hf : f.1 ≠ recLenName := hn f (by simp)
    rw [if_neg (by simp [hf])]
    exact mergeRec_any _ hn

theorem mergeOne_lenAny {m : Nat} (fs : List (Str × Val)) (hn : ∀ f ∈ fs, f.1 ≠ recLenName) (s : Bytes) :
    mergeOne m (Arr.seen ⟨fDt (fs ++ [lenField s]), [fs ++ [lenField s]]⟩) =
      if ∀ f ∈ fs, AsciiVal f.2 then .ok (fs.map (shownF m)) else .error .unicodeError := by
  unfold mergeOne Arr.seen
  simp only [fDt_names]
  cases fs with
  | nil => simp [lenField]
  | cons f fs =>
    have hf : f.1 ≠ recLenName := hn f (by simp)
    rw [if_neg (by simp [hf])]
    have e : ∀ gs : List (Str × Val), mergeRec m ((gs ++ [lenField s]).map seenF) = mergeRec m (gs.map seenF) := by
      intro gs
      unfold mergeRec
      have e0 : ([lenField s].map seenF).filter (fun kv => kv.1 ≠ recLenName) = [] := by
        simp [seenF, lenField]
      rw [List.map_append, List.filter_append, e0, List.append_nil]
    simp only [List.map_cons, List.map_nil]
    exact (e _).trans (mergeRec_any _ hn)

/-- Outcome of merging: the cells as shown when all are ASCII, UnicodeError otherwise. -/
def Merged (m : Nat) (fs : List (Str × Val)) (x : Except PyErr (List Record)) : Prop :=
  ((∀ f ∈ fs, AsciiVal f.2) → ∃ L, x = .ok L ∧ L.flatten = fs.map (shownF m)) ∧
  (¬ (∀ f ∈ fs, AsciiVal f.2) → x = .error .unicodeError)

theorem Merged.cons {m : Nat} {a b : List (Str × Val)} {arr : Arr} {arrs : List Arr}
    (h1 : mergeOne m arr = if ∀ f ∈ a, AsciiVal f.2 then .ok (a.map (shownF m)) else .error .unicodeError)
    (h2 : Merged m b (arrs.mapM (mergeOne m))) : Merged m (a ++ b) ((arr :: arrs).mapM (mergeOne m)) := by
  rw [List.mapM_cons, h1]
  constructor
  · intro h
    rw [if_pos fun f hf => h f (by simp [hf])]
    obtain ⟨L, hL, hL2⟩ := h2.1 fun f hf => h f (by simp [hf])
    refine ⟨a.map (shownF m) :: L, ?_, ?_⟩
    · rw [hL]; rfl
    · rw [List.flatten_cons, hL2, List.map_append]
  · intro h
    by_cases ha : ∀ f ∈ a, AsciiVal f.2
    · rw [if_pos ha, h2.2 (fun hb => h (by
        intro f hf
        rcases List.mem_append.mp hf with hf | hf
        · exact ha f hf
        · exact hb f hf))]
      rfl
    · rw [if_neg ha]
      rfl

theorem mergeAll_colsAny {m : Nat} (fs : List (Str × Val)) : ∀ curF : List (Str × Val),
    (∀ f ∈ curF ++ fs, f.1 ≠ recLenName) →
    Merged m (curF ++ fs) (((colArrs fs curF).map Arr.seen).mapM (mergeOne m)) := by
  induction fs with
  | nil =>
    intro curF hn
    simp only [List.append_nil] at hn
    exact Merged.cons (b := []) (arrs := []) (mergeOne_any curF hn) ⟨fun _ => ⟨[], rfl, rfl⟩, fun h => absurd (by simp) h⟩
  | cons f fs ih =>
    intro curF hn
    obtain ⟨n, v⟩ := f
    cases v with
    | num t x =>
      have := ih (curF ++ [(n, .num t x)]) (by simpa using hn)
      simpa [colArrs] using this
    | str s =>
      exact Merged.cons (mergeOne_lenAny curF (fun f hf => hn f (by simp [hf])) s) (ih [(n, .str s)]
        (fun f hf => hn f (by
          rw [List.mem_append] at hf ⊢
          rcases hf with hf | hf
          · right; rw [List.mem_singleton.mp hf]; simp
          · right; simp [hf])))

theorem mergeAll_paramsAny {m : Nat} (fs : List (Str × Val)) (hn : ∀ f ∈ fs, f.1 ≠ recLenName) :
    Merged m fs (((paramArrs fs).map Arr.seen).mapM (mergeOne m)) := by
  induction fs with
  | nil => exact ⟨fun _ => ⟨[], rfl, rfl⟩, fun h => absurd (by simp) h⟩
  | cons f fs ih =>
    have ih := ih (fun f hf => hn f (by simp [hf]))
    obtain ⟨n, v⟩ := f
    have hp := mergeOne_any (m := m) [(n, v)] (by simpa using hn (n, v) (by simp))
    cases v with
    | num t x => exact Merged.cons (a := [(n, .num t x)]) hp ih
    | str s =>
      have hl := mergeOne_lenAny (m := m) [] (by simp) s
      exact Merged.cons (a := []) hl (Merged.cons (a := [(n, .str s)]) hp ih)

theorem seen_names (arrs : List Arr) :
    ((arrs.map Arr.seen).flatMap fun a => a.dt.map Prod.fst) = arrs.flatMap fun a => a.dt.map Prod.fst := by
  rw [List.flatMap_map]
  rfl

theorem merge_generalAny {m : Nat} {arrs : List Arr} (hlen : ∀ a, arrs ≠ [a]) {fs : List (Str × Val)}
    (h : Merged m fs (arrs.mapM (mergeOne m)))
    (hd : ((arrs.flatMap fun a => a.dt.map Prod.fst).filter (· ≠ recLenName)).Nodup) :
    merge m arrs = if ∀ f ∈ fs, AsciiVal f.2 then .ok [fs.map (shownF m)] else .error .unicodeError := by
  unfold merge
  split
  · rename_i a
    exact absurd rfl (hlen a)
  · simp only
    rw [if_neg (by simpa using hd)]
    by_cases ha : ∀ f ∈ fs, AsciiVal f.2
    · obtain ⟨L, hL, hL2⟩ := h.1 ha
      rw [if_pos ha, hL, ← hL2]
      rfl
    · rw [if_neg ha, h.2 ha]
      rfl

theorem Stored.readOk {t : SType} {v : Val} (h : Stored t v) : ReadOk v := by
  cases t <;> cases v
  · obtain ⟨rfl, h⟩ := h; exact h
  · exact h.elim
  · exact h.elim
  · exact h

theorem stored_spec {fs : List (Str × SType)} {vs : List Val}
    (h : List.Forall₂ (fun f v => Stored f.2 v) fs vs) :
    (fields fs vs).map Prod.fst = fs.map Prod.fst ∧ (fields fs vs).map Prod.snd = vs ∧
    (∀ f ∈ fields fs vs, ReadOk f.2) ∧ encFs (fields fs vs) = vs.flatMap encodeVal := by
  induction h with
  | nil => simp [fields, encFs]
  | cons h _ ih =>
    rename_i f v fs vs _
    obtain ⟨h1, h2, h3, h4⟩ := ih
    refine ⟨?_, ?_, ?_, ?_⟩
    · simpa [fields] using h1
    · simpa [fields] using h2
    · intro x hx
      simp only [fields, List.map_cons, List.zip_cons_cons, List.mem_cons] at hx
      rcases hx with rfl | hx
      · exact h.readOk
      · exact h3 x hx
    · simp only [encFs, fields, List.map_cons, List.zip_cons_cons, List.flatMap_cons] at h4 ⊢
      rw [h4]

theorem paramDks_stored {fs : List (Str × SType)} {vs : List Val}
    (h : List.Forall₂ (fun f v => Stored f.2 v) fs vs) : paramDks (fields fs vs) = fs.flatMap sKeys := by
  induction h with
  | nil => rfl
  | cons h _ ih =>
    rename_i f v fs vs _
    obtain ⟨n, t⟩ := f
    simp only [fields, List.map_cons, List.zip_cons_cons, List.flatMap_cons] at ih ⊢
    cases t <;> cases v <;> simp only [Stored] at h
    · obtain ⟨rfl, _⟩ := h
      simp only [paramDks, sKeys]
      rw [ih]; rfl
    · simp only [paramDks, sKeys]
      rw [ih]; rfl

theorem colDks_stored {fs : List (Str × SType)} {vs : List Val}
    (h : List.Forall₂ (fun f v => Stored f.2 v) fs vs) : ∀ (cs : List ColField) (cur : Dtype),
    cs.map (fun c => (c.name, c.type)) = fs.map (fun f => (f.1, f.2.name)) →
    colGroups cs cur = colDks (fields fs vs) cur := by
  induction h with
  | nil =>
    intro cs cur hc
    rw [List.map_nil] at hc
    rw [List.map_eq_nil_iff.mp hc]; rfl
  | cons h _ ih =>
    rename_i f v fs vs _
    intro cs cur hc
    cases cs with
    | nil => simp at hc
    | cons c cs =>
      simp only [List.map_cons, List.cons.injEq, Prod.mk.injEq] at hc
      obtain ⟨⟨h1, h2⟩, h3⟩ := hc
      obtain ⟨n, t⟩ := f
      simp only [fields, List.map_cons, List.zip_cons_cons] at ih ⊢
      simp only at h1 h2
      unfold colGroups
      cases t <;> cases v <;> simp only [Stored] at h
      · obtain ⟨rfl, _⟩ := h
        rw [if_neg (by rw [h2, SType.name_str]; simp), h1, h2, typeKey_name, ih _ _ h3]
        rfl
      · rw [if_pos (by rw [h2, SType.name_str]), h1, ih _ _ h3]
        rfl

theorem stored_str {fs : List (Str × SType)} {vs : List Val}
    (h : List.Forall₂ (fun f v => Stored f.2 v) fs vs) {f : Str × Val} (hf : f ∈ fields fs vs) {s : Bytes}
    (he : f.2 = .str s) : SType.str ∈ fs.map Prod.snd := by
  induction h with
  | nil => simp [fields] at hf
  | cons h _ ih =>
    rename_i f' v fs vs _
    simp only [fields, List.map_cons, List.zip_cons_cons, List.mem_cons] at hf ⊢
    rcases hf with rfl | hf
    · left
      simp only at he
      subst he
      obtain ⟨n, t⟩ := f'
      cases t with
      | num t => simp [Stored] at h
      | str => rfl
    · right
      exact ih hf

theorem stored_has_str {fs : List (Str × SType)} {vs : List Val}
    (h : List.Forall₂ (fun f v => Stored f.2 v) fs vs) (hs : SType.str ∈ fs.map Prod.snd) :
    ∃ f ∈ fields fs vs, ∃ s, f.2 = .str s := by
  induction h with
  | nil => simp at hs
  | cons h _ ih =>
    rename_i f v fs vs _
    simp only [List.map_cons, List.mem_cons] at hs
    rcases hs with hs | hs
    · obtain ⟨n, t⟩ := f
      simp only at hs
      subst hs
      cases v with
      | num t x => simp [Stored] at h
      | str s => exact ⟨(n, .str s), by simp [fields], s, rfl⟩
    · obtain ⟨g, hg, s, hs⟩ := ih hs
      exact ⟨g, by simp only [fields, List.map_cons, List.zip_cons_cons, List.mem_cons]; exact Or.inr hg, s, hs⟩

/-- Without strings nothing is special. -/
theorem stored_fits {m : Nat} {fs : List (Str × SType)} {vs : List Val}
    (h : List.Forall₂ (fun f v => Stored f.2 v) fs vs) (hs : SType.str ∉ fs.map Prod.snd) :
    List.Forall₂ (fun f v => Fits m f.2 v) fs vs := by
  induction h with
  | nil => exact List.Forall₂.nil
  | cons h _ ih =>
    rename_i f v fs vs _
    obtain ⟨n, t⟩ := f
    simp only [List.map_cons, List.mem_cons, not_or] at hs
    refine List.Forall₂.cons ?_ (ih hs.2)
    cases t <;> cases v <;> simp only [Stored] at h
    · exact h
    · simp at hs

/-- The parameters of a page. -/
theorem Reader.pageParams_any {r : Reader} {l : Layout} (hd : r.Describes l) (hl : l.Ok) {pg : Page}
    (hpg : PageStored l pg) {p : Pos} (hp : r.PosOk p) {rest : Bytes}
    (hf : r.file.drop (r.cur p) = paramBytes pg ++ rest) (hc : r.cur p ≤ r.file.length) :
    r.getParams r.paramKeys [] p = if Val.str [] ∈ pg.params then .error .valueError
      else .ok ((pageArrs l pg).map Arr.seen, r.adv p (paramBytes pg).length) := by
  obtain ⟨e1, e1', e2, e3⟩ := stored_spec hpg.1
  have hk : r.paramKeys = paramDks (rcField pg.rows.length :: fields l.params pg.params) := by
    unfold Reader.paramKeys
    rw [hd.binary]
    simp only [Bool.not_false, if_true]
    rw [paramKeys_fields r.params r.maxStr l.params hd.params, ← paramDks_stored hpg.1]
    rfl
  have he : paramBytes pg = encFs (rcField pg.rows.length :: fields l.params pg.params) := by
    unfold paramBytes
    rw [← e3]
    simp [encFs, rcField, encodeVal, FType.size]
  rw [hk, he]
  rw [he] at hf
  rw [Reader.getParams_any _ [] p hp ?_ ?_ ?_ (by intro x hx; simp at hx) rest hf hc]
  · have : (Val.str [] ∈ (rcField pg.rows.length :: fields l.params pg.params).map Prod.snd) ↔
        Val.str [] ∈ pg.params := by
      rw [List.map_cons, e1', List.mem_cons]
      simp [rcField]
    simp only [this, List.nil_append]
    rfl
  · intro f hf
    rcases List.mem_cons.mp hf with rfl | hf
    · have := hpg.2.2
      simp only [ReadOk, rcField, FType.size]
      norm_num; omega
    · exact e2 f hf
  · intro f hf
    rcases List.mem_cons.mp hf with rfl | hf
    · exact rowCounts_ne
    · intro hn
      apply hl.2.1
      rw [← e1, ← hn]
      exact List.mem_map.mpr ⟨f, hf, rfl⟩
  · intro f hf hs
    rcases List.mem_cons.mp hf with rfl | hf
    · obtain ⟨s, hs⟩ := hs
      simp [rcField] at hs
    · obtain ⟨s, hs⟩ := hs
      apply hd.varLen_true
      rw [List.map_append, List.mem_append]
      exact Or.inl (stored_str hpg.1 hf hs)

theorem forall_snd {fs : List (Str × Val)} {vs : List Val} (h : fs.map Prod.snd = vs) :
    (∀ f ∈ fs, AsciiVal f.2) ↔ ∀ v ∈ vs, AsciiVal v := by
  rw [← h, List.forall_mem_map]

theorem shownF_fields (m : Nat) (fs : List (Str × SType)) (vs : List Val) :
    (fields fs vs).map (shownF m) = (fs.map Prod.fst).zip (vs.map (shown m)) := by
  unfold fields
  rw [List.zip_map_right]
  rfl

theorem Reader.pageParams_mergeAny {r : Reader} {l : Layout} (hl : l.Ok) {pg : Page} (hpg : PageStored l pg) :
    addPage r.maxStr [(pageArrs l pg).map Arr.seen] = if ∀ v ∈ pg.params, AsciiVal v then
        .ok [(rowCountsName, .num .long pg.rows.length) ::
          (l.params.map Prod.fst).zip (pg.params.map (shown r.maxStr))]
      else .error .unicodeError := by
  obtain ⟨e1, e1', e2, e3⟩ := stored_spec hpg.1
  have hn : ∀ f ∈ fields l.params pg.params, f.1 ≠ recLenName := by
    intro f hf hn
    apply hl.2.1
    rw [← e1, ← hn]
    exact List.mem_map.mpr ⟨f, hf, rfl⟩
  have hm : merge r.maxStr ((pageArrs l pg).map Arr.seen) = if ∀ v ∈ pg.params, AsciiVal v then
      .ok [(rowCountsName, .num .long pg.rows.length) ::
        (l.params.map Prod.fst).zip (pg.params.map (shown r.maxStr))]
      else .error .unicodeError := by
    by_cases hfs : paramArrs (fields l.params pg.params) = []
    · have : fields l.params pg.params = [] := by
        generalize fields l.params pg.params = fs at hfs
        cases fs with
        | nil => rfl
        | cons f fs =>
          obtain ⟨n, v⟩ := f
          cases v <;> simp [paramArrs] at hfs
      have h0 : pg.params = [] := by rw [← e1', this]; rfl
      rw [h0, if_pos (by simp)]
      unfold pageArrs
      rw [this]
      simp [paramArrs, merge, Arr.seen, seenF, rcField, seen]
    · have hM := mergeAll_paramsAny (m := r.maxStr) (fields l.params pg.params) hn
      have h0 := mergeOne_any (m := r.maxStr) [rcField pg.rows.length] (by simpa [rcField] using rowCounts_ne)
      have hM2 : Merged r.maxStr ([rcField pg.rows.length] ++ fields l.params pg.params)
          (((pageArrs l pg).map Arr.seen).mapM (mergeOne r.maxStr)) := Merged.cons h0 hM
      rw [merge_generalAny ?_ hM2 ?_]
      · have hiff : (∀ f ∈ [rcField pg.rows.length] ++ fields l.params pg.params, AsciiVal f.2) ↔
            ∀ v ∈ pg.params, AsciiVal v := by
          rw [← forall_snd e1', List.forall_mem_append]
          simp [rcField, AsciiVal]
        simp only [hiff, List.map_append, shownF_fields]
        rfl
      · intro a ha
        unfold pageArrs at ha
        rw [List.map_cons] at ha
        injection ha with _ ha
        exact hfs (List.map_eq_nil_iff.mp ha)
      · rw [seen_names]
        unfold pageArrs
        rw [List.flatMap_cons, List.filter_append, names_params _ hn, e1]
        have := hl.1
        simpa [fDt_names, rcField, rowCounts_ne] using this
  unfold addPage
  rw [List.mapM_cons, hm]
  by_cases ha : ∀ v ∈ pg.params, AsciiVal v
  · simp only [if_pos ha]; rfl
  · simp only [if_neg ha]; rfl

theorem Reader.pageRowCount_any {r : Reader} {l : Layout} (hd : r.Describes l) {pg : Page}
    (hpg : PageStored l pg) (hcols : l.cols ≠ []) (p : Pos) :
    r.rowCount ((pageArrs l pg).map Arr.seen) p = .ok pg.rows.length := by
  have hcne : r.cols ≠ [] := by
    intro h
    have := hd.cols
    rw [h, List.map_nil] at this
    exact hcols (List.map_eq_nil_iff.mp this.symm)
  have h4 : ofBits FType.long.size pg.rows.length = pg.rows.length := by
    unfold ofBits
    have := hpg.2.2
    rw [if_pos (by simp only [FType.size]; norm_num; omega)]
  unfold Reader.rowCount
  rw [if_neg hcne, hd.counts]
  simp only [Bool.not_false, if_true, pageArrs, List.map_cons]
  rw [List.find?_cons_of_pos (by simp [fDt, rcField, Arr.seen])]
  have : recField rowCountsName [rcField pg.rows.length] = some (.num .long pg.rows.length) := by
    simp [recField, rcField]
  have e : ((Arr.seen ⟨fDt [rcField pg.rows.length], [[rcField pg.rows.length]]⟩).rows.head?.bind
      (recField rowCountsName)) = some (.num .long pg.rows.length) := this
  simp only [e, h4]
  simp

/-- Rows with strings. -/
theorem Reader.getRows_any {r : Reader} {l : Layout} (hd : r.Describes l) (hl : l.Ok)
    (hcols : l.cols ≠ []) (rows : List (List Val)) :
    ∀ (p : Pos), r.PosOk p → (∀ row ∈ rows, List.Forall₂ (fun f v => Stored f.2 v) l.cols row) →
    ∀ rest, r.file.drop (r.cur p) = rows.flatMap (·.flatMap encodeVal) ++ rest →
    r.cur p ≤ r.file.length →
    r.getRows (colGroups r.cols []) rows.length p =
      if ∃ row ∈ rows, row.getLast? = some (.str []) then .error .valueError
      else .ok (rows.map fun row => (colArrs (fields l.cols row) []).map Arr.seen,
        r.adv p (rows.flatMap (·.flatMap encodeVal)).length) := by
  induction rows with
  | nil =>
    intro p hp h rest hf hc
    simp [Reader.getRows, Reader.adv_zero]
  | cons row rows ih =>
    intro p hp h rest hf hc
    have hrow := h row (by simp)
    obtain ⟨e1, e1', e2, e3⟩ := stored_spec hrow
    rw [List.flatMap_cons, List.append_assoc, ← e3] at hf
    have hne : fields l.cols row ≠ [] := by
      intro hx
      rw [hx] at e1
      exact hcols (List.map_eq_nil_iff.mp e1.symm)
    have h1 := Reader.getCols_row_any (r := r) (fields l.cols row) [] [] [] p hp
      (by simpa using e2)
      (by
        intro f hf hn
        apply hl.2.2.2
        rw [← e1, ← hn]
        exact List.mem_map.mpr ⟨f, by simpa using hf, rfl⟩)
      (by rw [List.nil_append, e1]; exact hl.2.2.1)
      (by
        rintro f hf ⟨s, hs⟩
        apply hd.varLen_true
        rw [List.map_append, List.mem_append]
        exact Or.inr (stored_str hrow hf hs))
      (by
        intro more
        exact resolve_noLen (by intro x hx; simp at hx) _)
      (by simpa using hne) (by simp) (rows.flatMap (·.flatMap encodeVal) ++ rest) (by simpa [fRaw] using hf) hc
    rw [List.nil_append, ← List.getLast?_map, e1'] at h1
    rw [List.length_cons, Reader.getRows, colDks_stored hrow r.cols [] hd.cols, h1]
    by_cases hlast : row.getLast? = some (.str [])
    · rw [if_pos hlast, if_pos ⟨row, by simp, hlast⟩]
      rfl
    rw [if_neg hlast]
    simp only [bind, Except.bind]
    have hz : (fRaw ([] : List (Str × Val))).length = 0 := rfl
    rw [hz, Nat.zero_add]
    have hdrop : r.file.drop (r.cur (r.adv p (encFs (fields l.cols row)).length)) =
        rows.flatMap (·.flatMap encodeVal) ++ rest := by
      rw [Reader.cur_adv, ← List.drop_drop, hf, List.drop_left]
    have hle : r.cur (r.adv p (encFs (fields l.cols row)).length) ≤ r.file.length := by
      have := congrArg List.length hf
      rw [List.length_drop, List.length_append] at this
      rw [Reader.cur_adv]; omega
    rw [← colDks_stored hrow r.cols [] hd.cols, ih _ (Reader.adv_ok hp _) (fun x hx => h x (by simp [hx])) rest hdrop hle]
    have hiff : (∃ row' ∈ row :: rows, row'.getLast? = some (.str [])) ↔
        ∃ row ∈ rows, row.getLast? = some (.str []) := by
      simp [hlast]
    simp only [hiff]
    by_cases hx : ∃ row ∈ rows, row.getLast? = some (.str [])
    · rw [if_pos hx, if_pos hx]
    · rw [if_neg hx, if_neg hx]
      simp only [Reader.adv_adv, List.map_cons, List.nil_append, List.flatMap_cons, List.length_append, e3]

/-- The rows of a page as `read` shows them. -/
def shownRows (m : Nat) (l : Layout) (pg : Page) : List Record :=
  pg.rows.map fun row => (l.cols.map Prod.fst).zip (row.map (shown m))

theorem addPage_any {m : Nat} {l : Layout} (hl : l.Ok) (hs : SType.str ∈ l.cols.map Prod.snd)
    (rows : List (List Val)) (hr : ∀ row ∈ rows, List.Forall₂ (fun f v => Stored f.2 v) l.cols row) :
    addPage m (rows.map fun row => (colArrs (fields l.cols row) []).map Arr.seen) =
      if ∀ row ∈ rows, ∀ v ∈ row, AsciiVal v then
        .ok (rows.map fun row => (l.cols.map Prod.fst).zip (row.map (shown m)))
      else .error .unicodeError := by
  have hone : ∀ row ∈ rows, merge m ((colArrs (fields l.cols row) []).map Arr.seen) =
      if ∀ v ∈ row, AsciiVal v then .ok [(l.cols.map Prod.fst).zip (row.map (shown m))]
      else .error .unicodeError := by
    intro row hrow
    have h := hr row hrow
    obtain ⟨e1, e1', e2, e3⟩ := stored_spec h
    have hn : ∀ f ∈ fields l.cols row, f.1 ≠ recLenName := by
      intro f hf hn
      apply hl.2.2.2
      rw [← e1, ← hn]
      exact List.mem_map.mpr ⟨f, hf, rfl⟩
    rw [merge_generalAny ?_ (mergeAll_colsAny (m := m) (fields l.cols row) [] (by simpa using hn)) ?_]
    · simp only [List.nil_append, forall_snd e1', shownF_fields]
    · intro a ha
      have := colArrs_length (fields l.cols row) [] (stored_has_str h hs)
      cases hx : colArrs (fields l.cols row) [] with
      | nil => rw [hx] at ha; simp at ha
      | cons b tl =>
        cases tl with
        | nil => exact this b hx
        | cons c tl => rw [hx] at ha; simp at ha
    · rw [seen_names, names_cols _ _ (by simpa using hn), List.nil_append, e1]
      exact hl.2.2.1
  unfold addPage
  have key : ∀ rows' : List (List Val), (∀ row ∈ rows', row ∈ rows) →
      (rows'.map fun row => (colArrs (fields l.cols row) []).map Arr.seen).mapM (merge m) =
      if ∀ row ∈ rows', ∀ v ∈ row, AsciiVal v then
        .ok (rows'.map fun row => [(l.cols.map Prod.fst).zip (row.map (shown m))])
      else .error .unicodeError := by
    intro rows'
    induction rows' with
    | nil => intro _; simp [pure, Except.pure]
    | cons row rows' ih =>
      intro hsub
      rw [List.map_cons, List.mapM_cons, hone row (hsub row (by simp)), ih fun x hx => hsub x (by simp [hx])]
      by_cases h1 : ∀ v ∈ row, AsciiVal v
      · rw [if_pos h1]
        by_cases h2 : ∀ row ∈ rows', ∀ v ∈ row, AsciiVal v
        · rw [if_pos h2, if_pos (show ∀ x ∈ row :: rows', ∀ v ∈ x, AsciiVal v from
            List.forall_mem_cons.mpr ⟨h1, h2⟩)]
          rfl
        · rw [if_neg h2, if_neg (show ¬ ∀ x ∈ row :: rows', ∀ v ∈ x, AsciiVal v from
            fun hx => h2 fun x hxx => hx x (by simp [hxx]))]
          rfl
      · rw [if_neg h1, if_neg (show ¬ ∀ x ∈ row :: rows', ∀ v ∈ x, AsciiVal v from
            fun hx => h1 (hx row (by simp)))]
        rfl
  rw [key rows (fun _ h => h)]
  by_cases h : ∀ row ∈ rows, ∀ v ∈ row, AsciiVal v
  · rw [if_pos h, if_pos h]
    simp only [bind, Except.bind]
    congr 1
    rw [← List.flatMap_def]
    exact List.map_eq_flatMap.symm
  · rw [if_neg h, if_neg h]
    rfl

end Verif.Sdds
