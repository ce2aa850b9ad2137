import Verif.Sdds.LemmasRead

/-!
# Lemmas on the binary reader: rows with strings, merging, pages
-/

set_option linter.unusedSimpArgs false
set_option linter.unusedVariables false

namespace Verif.Sdds

/-- Column groups in terms of values. -/
def colDks : List (Str × Val) → Dtype → List Dtype
  | [], cur => [cur]
  | (n, .num t _) :: fs, cur => colDks fs (cur ++ [(n, .num t)])
  | (n, .str _) :: fs, cur => (cur ++ [recLenKey]) :: colDks fs [(n, .strRaw)]

/-- Arrays read for a row. -/
def colArrs : List (Str × Val) → List (Str × Val) → List Arr
  | [], cur => [⟨fDt cur, [cur]⟩]
  | (n, .num t x) :: fs, cur => colArrs fs (cur ++ [(n, .num t x)])
  | (n, .str s) :: fs, cur => ⟨fDt (cur ++ [lenField s]), [cur ++ [lenField s]]⟩ :: colArrs fs [(n, .str s)]

theorem fDt_append (a b : List (Str × Val)) : fDt (a ++ b) = fDt a ++ fDt b := by simp [fDt]
theorem fRaw_append (a b : List (Str × Val)) : fRaw (a ++ b) = fRaw a ++ fRaw b := by simp [fRaw]

theorem recField_last (cur : List (Str × Val)) (v : Val) (h : ∀ f ∈ cur, f.1 ≠ recLenName) :
    recField recLenName (cur ++ [(recLenName, v)]) = some v := by
  unfold recField
  rw [List.find?_append]
  have : cur.find? (fun kv => decide (kv.1 = recLenName)) = none := by
    rw [List.find?_eq_none]
    intro f hf
    simpa using h f hf
  rw [this]
  simp

theorem Reader.getCols_row_ok {r : Reader} {m : Nat} (fs : List (Str × Val)) :
    ∀ (cur : Dtype) (curF : List (Str × Val)) (acc : List Arr) (p : Pos), r.PosOk p →
    (∀ f ∈ curF ++ fs, ValOk m f.2) → (∀ f ∈ curF ++ fs, f.1 ≠ recLenName) →
    ((curF ++ fs).map Prod.fst).Nodup →
    (∀ f ∈ fs, (∃ s, f.2 = .str s) → r.varLen = true) →
    (∀ more, resolve r.varLen acc.getLast? (cur ++ more) = .ok (fDt curF ++ more)) →
    (∃ f, (curF ++ fs).getLast? = some f ∧ f.2 ≠ .str []) →
    ∀ rest, r.file.drop (r.cur p) = fRaw curF ++ (encFs fs ++ rest) → r.cur p ≤ r.file.length →
    r.getParams (colDks fs cur) acc p =
      .ok (acc ++ colArrs fs curF, r.adv p ((fRaw curF).length + (encFs fs).length)) := by
  induction fs with
  | nil =>
    intro cur curF acc p hp h hn hd hv hres hne rest hf hc
    have h1 := hres []
    rw [List.append_nil, List.append_nil] at h1
    simp only [List.append_nil] at h hn hd hne
    simp only [colDks, colArrs, Reader.getParams, h1, bind, Except.bind]
    obtain ⟨f, hf0, hf1⟩ := hne
    rw [Reader.readRec_ok (m := m) hp curF (fRaw_pos (List.mem_of_getLast? hf0) hf1) hd h (rest := rest) (by simpa [encFs] using hf) hc]
    simp [encFs]
  | cons f fs ih =>
    intro cur curF acc p hp h hn hd hv hres hne rest hf hc
    obtain ⟨n, v⟩ := f
    cases v with
    | num t x =>
      simp only [colDks, colArrs]
      have e : encFs ((n, .num t x) :: fs) = fRaw [(n, .num t x)] ++ encFs fs := by
        simp [encFs, fRaw, encodeVal, rawVal]
      have hres' : ∀ more, resolve r.varLen acc.getLast? (cur ++ [(n, .num t)] ++ more) =
          .ok (fDt (curF ++ [(n, .num t x)]) ++ more) := by
        intro more
        rw [List.append_assoc, hres, fDt_append, List.append_assoc]
        rfl
      rw [ih (cur ++ [(n, KType.num t)]) (curF ++ [(n, .num t x)]) acc p hp (by simpa using h)
        (by simpa using hn) (by simpa using hd) (fun f hf => hv f (by simp [hf])) hres' (by simpa using hne) rest
        (by rw [hf, e, fRaw_append]; simp) hc]
      rw [e, fRaw_append]
      simp only [List.length_append, Nat.add_assoc]
    | str s =>
      have hok : ValOk m (.str s) := h (n, .str s) (by simp)
      have hvl : r.varLen = true := hv (n, .str s) (by simp) ⟨s, rfl⟩
      have e : encFs ((n, .str s) :: fs) = fRaw [lenField s] ++ (fRaw [(n, .str s)] ++ encFs fs) := by
        simp [encFs, fRaw, encodeVal, rawVal, lenField, FType.size]
      have hlenok : ValOk m (lenField s).2 := by
        have := hok.lt
        simp only [ValOk, lenField, FType.size]
        norm_num; omega
      have hcur : ∀ f ∈ curF, f.1 ≠ recLenName := fun f hf => hn f (by simp [hf])
      have hf' : r.file.drop (r.cur p) = fRaw (curF ++ [lenField s]) ++
          (fRaw [(n, .str s)] ++ (encFs fs ++ rest)) := by
        rw [hf, e, fRaw_append]; simp
      have hd2 : ((curF ++ [lenField s]).map Prod.fst).Nodup := by
        rw [List.map_append, List.nodup_append]
        rw [List.map_append, List.nodup_append] at hd
        refine ⟨hd.1, by simp, ?_⟩
        intro a ha b hb
        obtain ⟨f, hf, rfl⟩ := List.mem_map.mp ha
        have : b = recLenName := by simpa [lenField] using hb
        rw [this]
        exact hcur f hf
      have hr := Reader.readRec_ok (m := m) hp (curF ++ [lenField s])
        (fRaw_pos (f := lenField s) (by simp) (by simp [lenField])) hd2
        (by
          intro f hf
          rcases List.mem_append.mp hf with hf | hf
          · exact h f (by simp [hf])
          · rw [List.mem_singleton.mp hf]; exact hlenok) hf' hc
      have edt : fDt (curF ++ [lenField s]) = fDt curF ++ [recLenKey] := by rw [fDt_append]; rfl
      simp only [colDks, colArrs, Reader.getParams, hres, bind, Except.bind]
      rw [← edt, hr]
      simp only
      have hdrop : r.file.drop (r.cur (r.adv p (fRaw (curF ++ [lenField s])).length)) =
          fRaw [(n, .str s)] ++ (encFs fs ++ rest) := by
        rw [Reader.cur_adv, ← List.drop_drop, hf', List.drop_left]
      have hle : r.cur (r.adv p (fRaw (curF ++ [lenField s])).length) ≤ r.file.length := by
        have := congrArg List.length hf'
        rw [List.length_drop, List.length_append] at this
        rw [Reader.cur_adv]; omega
      rw [ih [(n, KType.strRaw)] [(n, Val.str s)] _ _ (Reader.adv_ok hp _) (fun f hf => h f (by
          rw [List.mem_append] at hf ⊢
          rcases hf with hf | hf
          · right; rw [List.mem_singleton.mp hf]; simp
          · right; simp [hf])) (fun f hf => hn f (by
          rw [List.mem_append] at hf ⊢
          rcases hf with hf | hf
          · right; rw [List.mem_singleton.mp hf]; simp
          · right; simp [hf])) (by
          rw [List.map_append, List.nodup_append] at hd
          exact hd.2.1) (fun f hf => hv f (by simp [hf])) ?_
          (by rw [List.getLast?_append] at hne; simpa using hne) rest hdrop hle]
      · simp only [List.append_assoc, List.singleton_append, Reader.adv_adv]
        rw [e, fRaw_append]
        simp only [List.length_append, Nat.add_assoc]
      · intro more
        rw [hvl, List.getLast?_concat]
        refine resolve_len (a := ⟨fDt (curF ++ [lenField s]), [curF ++ [lenField s]]⟩)
          (rec := curF ++ [lenField s]) (l := []) hok.lt ?_ rfl ?_ n more
        · rw [edt]; simp [recLenKey]
        · exact recField_last curF _ hcur

theorem castVal_ok {m : Nat} {v : Val} (h : ValOk m v) : castVal m v = .ok v := by
  cases v with
  | num t x => rfl
  | str s =>
    simp only [castVal]
    rw [if_pos (by simpa using h.ascii), List.take_of_length_le h.short, stripNul_good h.noNul]

theorem mergeRec_ok {m : Nat} (fs : List (Str × Val)) (h : ∀ f ∈ fs, ValOk m f.2)
    (hn : ∀ f ∈ fs, f.1 ≠ recLenName) : mergeRec m fs = .ok fs := by
  unfold mergeRec
  rw [List.filter_eq_self.mpr (by simpa using hn)]
  clear hn
  induction fs with
  | nil => rfl
  | cons f fs ih =>
    rw [List.mapM_cons, ih fun f hf => h f (by simp [hf]), castVal_ok (h f (by simp))]
    rfl

theorem mergeRec_len {m : Nat} (fs : List (Str × Val)) (h : ∀ f ∈ fs, ValOk m f.2)
    (hn : ∀ f ∈ fs, f.1 ≠ recLenName) (s : Bytes) : mergeRec m (fs ++ [lenField s]) = .ok fs := by
  have e : mergeRec m (fs ++ [lenField s]) = mergeRec m fs := by
    unfold mergeRec
    rw [List.filter_append]
    simp [lenField]
  rw [e, mergeRec_ok fs h hn]

theorem fDt_names (fs : List (Str × Val)) : (fDt fs).map Prod.fst = fs.map Prod.fst := by simp [fDt]

theorem mergeOne_plain {m : Nat} (fs : List (Str × Val)) (h : ∀ f ∈ fs, ValOk m f.2)
    (hn : ∀ f ∈ fs, f.1 ≠ recLenName) : mergeOne m ⟨fDt fs, [fs]⟩ = .ok fs := by
  unfold mergeOne
  rw [fDt_names]
  cases fs with
  | nil => simp
  | cons f fs =>
    have hf : f.1 ≠ recLenName := hn f (by simp)
    rw [if_neg (by simp [hf])]
    exact mergeRec_ok _ h hn

theorem mergeOne_len {m : Nat} (fs : List (Str × Val)) (h : ∀ f ∈ fs, ValOk m f.2)
    (hn : ∀ f ∈ fs, f.1 ≠ recLenName) (s : Bytes) :
    mergeOne m ⟨fDt (fs ++ [lenField s]), [fs ++ [lenField s]]⟩ = .ok fs := by
  unfold mergeOne
  rw [fDt_names]
  cases fs with
  | nil => simp [lenField]
  | cons f fs =>
    have hf : f.1 ≠ recLenName := hn f (by simp)
    rw [if_neg (by simp [hf])]
    exact mergeRec_len _ h hn s

theorem mapM_ok_cons {α β : Type} (f : α → Except PyErr β) (a : α) (l : List α) (b : β) (bs : List β)
    (h1 : f a = .ok b) (h2 : l.mapM f = .ok bs) : (a :: l).mapM f = .ok (b :: bs) := by
  rw [List.mapM_cons, h1, h2]; rfl

theorem mergeAll_cols {m : Nat} (fs : List (Str × Val)) : ∀ curF : List (Str × Val),
    (∀ f ∈ curF ++ fs, ValOk m f.2) → (∀ f ∈ curF ++ fs, f.1 ≠ recLenName) →
    ∃ L, (colArrs fs curF).mapM (mergeOne m) = .ok L ∧ L.flatten = curF ++ fs := by
  induction fs with
  | nil =>
    intro curF h hn
    simp only [List.append_nil] at h hn
    exact ⟨[curF], mapM_ok_cons _ _ _ _ _ (mergeOne_plain curF h hn) rfl, by simp⟩
  | cons f fs ih =>
    intro curF h hn
    obtain ⟨n, v⟩ := f
    cases v with
    | num t x =>
      obtain ⟨L, h1, h2⟩ := ih (curF ++ [(n, .num t x)]) (by simpa using h) (by simpa using hn)
      exact ⟨L, h1, by rw [h2]; simp⟩
    | str s =>
      obtain ⟨L, h1, h2⟩ := ih [(n, .str s)]
        (fun f hf => h f (by
          rw [List.mem_append] at hf ⊢
          rcases hf with hf | hf
          · right; rw [List.mem_singleton.mp hf]; simp
          · right; simp [hf]))
        (fun f hf => hn f (by
          rw [List.mem_append] at hf ⊢
          rcases hf with hf | hf
          · right; rw [List.mem_singleton.mp hf]; simp
          · right; simp [hf]))
      refine ⟨curF :: L, mapM_ok_cons _ _ _ _ _ (mergeOne_len curF (fun f hf => h f (by simp [hf]))
        (fun f hf => hn f (by simp [hf])) s) h1, ?_⟩
      rw [List.flatten_cons, h2]
      rfl

theorem mergeAll_params {m : Nat} (fs : List (Str × Val))
    (h : ∀ f ∈ fs, ValOk m f.2) (hn : ∀ f ∈ fs, f.1 ≠ recLenName) :
    ∃ L, (paramArrs fs).mapM (mergeOne m) = .ok L ∧ L.flatten = fs := by
  induction fs with
  | nil => exact ⟨[], rfl, rfl⟩
  | cons f fs ih =>
    obtain ⟨L, h1, h2⟩ := ih (fun f hf => h f (by simp [hf])) (fun f hf => hn f (by simp [hf]))
    obtain ⟨n, v⟩ := f
    have hp := mergeOne_plain (m := m) [(n, v)] (by simpa using h (n, v) (by simp))
      (by simpa using hn (n, v) (by simp))
    cases v with
    | num t x =>
      exact ⟨[(n, .num t x)] :: L, mapM_ok_cons _ _ _ _ _ hp h1, by simp [h2]⟩
    | str s =>
      have hl := mergeOne_len (m := m) [] (by simp) (by simp) s
      refine ⟨[] :: [(n, .str s)] :: L, mapM_ok_cons _ _ _ _ _ hl (mapM_ok_cons _ _ _ _ _ hp h1), ?_⟩
      simp [h2]

theorem names_cols (fs : List (Str × Val)) : ∀ curF : List (Str × Val),
    (∀ f ∈ curF ++ fs, f.1 ≠ recLenName) →
    ((colArrs fs curF).flatMap fun a => a.dt.map Prod.fst).filter (· ≠ recLenName) =
      (curF ++ fs).map Prod.fst := by
  induction fs with
  | nil =>
    intro curF hn
    simp only [List.append_nil] at hn
    simp only [colArrs, List.flatMap_cons, List.flatMap_nil, List.append_nil, fDt_names]
    rw [List.filter_eq_self]
    intro a ha
    obtain ⟨f, hf, rfl⟩ := List.mem_map.mp ha
    simpa using hn f hf
  | cons f fs ih =>
    intro curF hn
    obtain ⟨n, v⟩ := f
    cases v with
    | num t x =>
      simp only [colArrs]
      rw [ih _ (by simpa using hn)]
      simp
    | str s =>
      simp only [colArrs, List.flatMap_cons, List.filter_append]
      rw [ih _ (fun f hf => hn f (by
          rw [List.mem_append] at hf ⊢
          rcases hf with hf | hf
          · right; rw [List.mem_singleton.mp hf]; simp
          · right; simp [hf])), fDt_names, List.map_append, List.filter_append]
      rw [(List.filter_eq_self (l := curF.map Prod.fst)).mpr (by
        intro a ha
        obtain ⟨f, hf, rfl⟩ := List.mem_map.mp ha
        simpa using hn f (by simp [hf]))]
      simp [lenField]

theorem names_params (fs : List (Str × Val)) (hn : ∀ f ∈ fs, f.1 ≠ recLenName) :
    ((paramArrs fs).flatMap fun a => a.dt.map Prod.fst).filter (· ≠ recLenName) = fs.map Prod.fst := by
  induction fs with
  | nil => rfl
  | cons f fs ih =>
    have h0 : f.1 ≠ recLenName := hn f (by simp)
    have ih := ih fun f hf => hn f (by simp [hf])
    obtain ⟨n, v⟩ := f
    cases v with
    | num t x =>
      simp only [paramArrs, List.flatMap_cons, List.filter_append, ih, fDt_names, List.map_cons, List.map_nil]
      simp [h0]
    | str s =>
      simp only [paramArrs, List.flatMap_cons, List.filter_append, ih, fDt_names, List.map_cons, List.map_nil]
      simp [h0, lenField]

theorem merge_general {m : Nat} {arrs : List Arr} (hlen : ∀ a, arrs ≠ [a]) {L : List Record}
    (h : arrs.mapM (mergeOne m) = .ok L)
    (hd : ((arrs.flatMap fun a => a.dt.map Prod.fst).filter (· ≠ recLenName)).Nodup) :
    merge m arrs = .ok [L.flatten] := by
  unfold merge
  split
  · rename_i a
    exact absurd rfl (hlen a)
  · simp only
    rw [if_neg (by simpa using hd)]
    rw [h]
    rfl

end Verif.Sdds
