import Verif.Sdds.Spec
import Verif.Py.TextLemmas
import Mathlib.Data.List.Forall2

/-!
# Lemmas on the binary reader
-/

set_option linter.unusedSimpArgs false
set_option linter.unusedVariables false

namespace Verif.Sdds

/-- Place in the file where the next read starts. -/
def Reader.cur (r : Reader) (p : Pos) : Nat := if r.buffer then p.position else p.ptr

/-- Position after reading `n` bytes. -/
def Reader.adv (r : Reader) (p : Pos) (n : Nat) : Pos :=
  if r.buffer then { p with position := p.position + n } else { p with ptr := p.ptr + n }

/-- Positions that occur when nothing was skipped. -/
def Reader.PosOk (r : Reader) (p : Pos) : Prop := r.buffer = false → p.position = 0

theorem Reader.adv_ok {r : Reader} {p : Pos} (h : r.PosOk p) (n : Nat) : r.PosOk (r.adv p n) := by
  intro hb
  simp [Reader.adv, hb, h hb]

theorem Reader.cur_adv (r : Reader) (p : Pos) (n : Nat) : r.cur (r.adv p n) = r.cur p + n := by
  unfold Reader.cur Reader.adv
  cases r.buffer <;> simp

theorem Reader.adv_adv (r : Reader) (p : Pos) (n m : Nat) : r.adv (r.adv p n) m = r.adv p (n + m) := by
  unfold Reader.adv
  cases r.buffer <;> simp [Nat.add_assoc]

theorem Reader.adv_zero (r : Reader) (p : Pos) : r.adv p 0 = p := by
  unfold Reader.adv
  cases r.buffer <;> simp

theorem Reader.readArr_ok {r : Reader} {p : Pos} (hp : r.PosOk p) {dk : Dtype} {size count : Nat}
    (hs : itemSize dk = .ok size) (h0 : 0 < size) {enc rest : Bytes}
    (hf : r.file.drop (r.cur p) = enc ++ rest) (hl : enc.length = size * count)
    (hc : r.cur p ≤ r.file.length) :
    r.readArr dk count p = .ok (⟨dk, decodeRows dk size count (enc ++ rest)⟩, r.adv p (size * count)) := by
  have hlen : r.file.length - r.cur p = size * count + rest.length := by
    have := congrArg List.length hf
    rw [List.length_drop, List.length_append, hl] at this
    exact this
  unfold Reader.readArr
  cases hb : r.buffer with
  | true =>
    have hcur : r.cur p = p.position := by simp [Reader.cur, hb]
    rw [hcur] at hf hc hlen
    unfold frombuffer
    simp only [if_true, hs, bind, Except.bind]
    rw [if_neg (by omega), if_neg (by omega), if_neg (by rw [hlen, Nat.mul_comm count size]; omega)]
    simp only [hf]
    congr 2
    simp [Reader.adv, hb]
  | false =>
    have hcur : r.cur p = p.ptr := by simp [Reader.cur, hb]
    have hp0 := hp hb
    rw [hcur] at hf hc hlen
    unfold fromfile
    simp only [hs, bind, Except.bind, hp0, Nat.add_zero, Bool.false_eq_true, if_false]
    have hav : ¬ (r.file.length - p.ptr) / size < count := by
      rw [hlen, not_lt, Nat.le_div_iff_mul_le h0, Nat.mul_comm count size]
      omega
    rw [if_neg (by omega), if_neg hav]
    simp only [hf, Nat.mul_comm count size]
    congr 2
    simp [Reader.adv, hb, hp0]

theorem decodeRows_one (dk : Dtype) (size : Nat) (b : Bytes) : decodeRows dk size 1 b = [decodeRec dk b] := rfl

/-- Types of data fields as numpy keys of known size. -/
def valKey : Val → KType
  | .num t _ => .num t
  | .str s => .strN s.length

/-- Bytes of the field itself, without the length of a string. -/
def rawVal : Val → Bytes
  | .num t x => leBytes t.size x
  | .str s => s

/-- The value is one that decoding gives back. -/
def ValOk (maxStr : Nat) : Val → Prop
  | .num t x => x < 256 ^ t.size
  | .str s => GoodStr maxStr s

theorem Fits.valOk {m : Nat} {t : SType} {v : Val} (h : Fits m t v) : ValOk m v := by
  cases t <;> cases v
  · obtain ⟨rfl, h⟩ := h; exact h
  · exact h.elim
  · exact h.elim
  · exact h

theorem keyWidth_valKey (v : Val) : keyWidth (valKey v) = (rawVal v).length := by
  cases v <;> simp [valKey, keyWidth, rawVal]

theorem keySize_valKey (v : Val) : keySize (valKey v) = .ok (rawVal v).length := by
  cases v <;> simp [valKey, keySize, rawVal]

theorem stripNul_good {s : Bytes} (h : s.getLast? ≠ some 0) : stripNul s = s := by
  unfold stripNul
  cases hr : s.reverse with
  | nil => rw [List.reverse_eq_nil_iff.mp hr]; rfl
  | cons x l =>
    have hx : s.getLast? = some x := by rw [← List.head?_reverse, hr]; rfl
    have : x ≠ 0 := by rintro rfl; exact h hx
    rw [List.dropWhile_cons_of_neg (by simpa using this), ← hr, List.reverse_reverse]

theorem decodeKey_raw {m : Nat} {v : Val} (h : ValOk m v) : decodeKey (valKey v) (rawVal v) = v := by
  cases v with
  | num t x => simp only [valKey, rawVal, decodeKey]; rw [leNat_leBytes_of_lt h]
  | str s => simp only [valKey, rawVal, decodeKey]; rw [stripNul_good h.noNul]

/-- Fields with values: the dtype, the bytes and the record. -/
def fDt (fs : List (Str × Val)) : Dtype := fs.map fun f => (f.1, valKey f.2)
def fRaw (fs : List (Str × Val)) : Bytes := fs.flatMap fun f => rawVal f.2

theorem decodeRec_raw {m : Nat} (fs : List (Str × Val)) (h : ∀ f ∈ fs, ValOk m f.2) (rest : Bytes) :
    decodeRec (fDt fs) (fRaw fs ++ rest) = fs := by
  induction fs with
  | nil => rfl
  | cons f fs ih =>
    have e : fRaw (f :: fs) ++ rest = rawVal f.2 ++ (fRaw fs ++ rest) := by simp [fRaw]
    have e2 : fDt (f :: fs) = (f.1, valKey f.2) :: fDt fs := rfl
    rw [e, e2, decodeRec]
    simp only [keyWidth_valKey, List.take_left, List.drop_left]
    rw [ih fun f hf => h f (by simp [hf]), decodeKey_raw (h f (by simp))]

theorem decodeRows_raw {m : Nat} {dk : Dtype} {size : Nat} (rows : List (List (Str × Val)))
    (h : ∀ fs ∈ rows, (∀ f ∈ fs, ValOk m f.2) ∧ fDt fs = dk ∧ (fRaw fs).length = size) (rest : Bytes) :
    decodeRows dk size rows.length (rows.flatMap fRaw ++ rest) = rows := by
  induction rows with
  | nil => rfl
  | cons fs rows ih =>
    obtain ⟨h1, h2, h3⟩ := h fs (by simp)
    simp only [List.length_cons, List.flatMap_cons, List.append_assoc, decodeRows]
    rw [← h2, decodeRec_raw fs h1, h2]
    congr 1
    rw [← h3, List.drop_left, h3]
    exact ih fun fs hfs => h fs (by simp [hfs])

theorem mapM_keySize (fs : List (Str × Val)) :
    (fDt fs).mapM (fun k => keySize k.2) = .ok (fs.map fun f => (rawVal f.2).length) := by
  induction fs with
  | nil => rfl
  | cons f fs ih =>
    have e2 : fDt (f :: fs) = (f.1, valKey f.2) :: fDt fs := rfl
    rw [e2, List.mapM_cons, keySize_valKey, ih]
    rfl

theorem itemSize_fDt (fs : List (Str × Val)) (hn : (fs.map Prod.fst).Nodup) :
    itemSize (fDt fs) = .ok (fRaw fs).length := by
  unfold itemSize
  rw [mapM_keySize]
  have e : (fDt fs).map Prod.fst = fs.map Prod.fst := by simp [fDt]
  simp only [bind, Except.bind, e, if_pos hn]
  congr 1
  simp [fRaw, List.length_flatMap]

theorem rawVal_pos {v : Val} (h : v ≠ .str []) : 0 < (rawVal v).length := by
  cases v with
  | num t x => cases t <;> simp [rawVal, FType.size]
  | str s => exact List.length_pos_iff.mpr (fun hs => h (by rw [← hs]; rfl))

theorem fRaw_pos {fs : List (Str × Val)} {f : Str × Val} (hf : f ∈ fs) (h : f.2 ≠ .str []) :
    0 < (fRaw fs).length := by
  have := rawVal_pos h
  unfold fRaw
  rw [List.length_flatMap]
  have := List.single_le_sum (l := fs.map fun f => (rawVal f.2).length) (by simp) _ (List.mem_map_of_mem hf)
  omega

/-- Reading one record whose field sizes are known. -/
theorem Reader.readRec_ok {r : Reader} {p : Pos} (hp : r.PosOk p) {m : Nat} (fs : List (Str × Val))
    (hne : 0 < (fRaw fs).length) (hn : (fs.map Prod.fst).Nodup) (h : ∀ f ∈ fs, ValOk m f.2) {rest : Bytes}
    (hf : r.file.drop (r.cur p) = fRaw fs ++ rest) (hc : r.cur p ≤ r.file.length) :
    r.readArr (fDt fs) 1 p = .ok (⟨fDt fs, [fs]⟩, r.adv p (fRaw fs).length) := by
  rw [Reader.readArr_ok hp (itemSize_fDt fs hn) hne hf (by simp) hc, decodeRows_one,
    decodeRec_raw fs h, Nat.mul_one]

/-- The length field in front of a string. -/
def lenField (s : Bytes) : Str × Val := (recLenName, .num .long s.length)

/-- Arrays read for parameters. -/
def paramArrs : List (Str × Val) → List Arr
  | [] => []
  | (n, .num t x) :: fs => ⟨fDt [(n, .num t x)], [[(n, .num t x)]]⟩ :: paramArrs fs
  | (n, .str s) :: fs => ⟨fDt [lenField s], [[lenField s]]⟩ ::
      ⟨fDt [(n, .str s)], [[(n, .str s)]]⟩ :: paramArrs fs

/-- Keys read for parameters, before lengths are known. -/
def paramDks : List (Str × Val) → List Dtype
  | [] => []
  | (n, .num t _) :: fs => [(n, .num t)] :: paramDks fs
  | (n, .str _) :: fs => [recLenKey] :: [(n, .strRaw)] :: paramDks fs

def noLen (a : Option Arr) : Prop := ∀ x, a = some x → recLenName ∉ x.dt.map Prod.fst

theorem resolve_noLen {v : Bool} {a : Option Arr} (h : noLen a) (dk : Dtype) : resolve v a dk = .ok dk := by
  unfold resolve
  cases v with
  | false => rfl
  | true =>
    cases a with
    | none => rfl
    | some x =>
      have : (x.dt.map Prod.fst).contains recLenName = false := by
        simpa using h x rfl
      simp only [Bool.not_true, Bool.false_eq_true, if_false, this]

theorem lenVal {s : Bytes} (h : s.length < 2147483648) : ofBits 4 s.length = s.length := by
  unfold ofBits
  rw [if_pos (by norm_num; omega)]

theorem resolve_len {a : Arr} {s : Bytes} (hs : s.length < 2147483648)
    (hdt : recLenName ∈ a.dt.map Prod.fst) {rec : Record} {l : List Record}
    (hr : a.rows = rec :: l)
    (hrec : recField recLenName rec = some (.num .long s.length)) (n : Str) (ks : Dtype) :
    resolve true (some a) ((n, .strRaw) :: ks) = .ok ((n, .strN s.length) :: ks) := by
  unfold resolve
  have : (a.dt.map Prod.fst).contains recLenName = true := by simpa using hdt
  simp only [Bool.not_true, Bool.false_eq_true, if_false, this, if_true, hr, List.head?_cons,
    Option.bind_some, hrec, FType.size, lenVal hs, fmtKey]
  rw [if_pos (by omega)]
  rfl

/-- Bytes of parameter values. -/
def encFs (fs : List (Str × Val)) : Bytes := fs.flatMap fun f => encodeVal f.2

theorem Reader.getParams_ok {r : Reader} {m : Nat} (fs : List (Str × Val)) :
    ∀ (acc : List Arr) (p : Pos), r.PosOk p → (∀ f ∈ fs, ValOk m f.2) →
    (∀ f ∈ fs, f.1 ≠ recLenName) → (∀ f ∈ fs, f.2 ≠ .str []) →
    (∀ f ∈ fs, (∃ s, f.2 = .str s) → r.varLen = true) →
    noLen acc.getLast? →
    ∀ rest, r.file.drop (r.cur p) = encFs fs ++ rest → r.cur p ≤ r.file.length →
    r.getParams (paramDks fs) acc p = .ok (acc ++ paramArrs fs, r.adv p (encFs fs).length) := by
  induction fs with
  | nil =>
    intro acc p hp h hn he hv hl rest hf hc
    simp [paramDks, paramArrs, Reader.getParams, encFs, Reader.adv_zero]
  | cons f fs ih =>
    intro acc p hp h hn he hv hl rest hf hc
    obtain ⟨n, v⟩ := f
    have hn0 : n ≠ recLenName := hn (n, v) (by simp)
    cases v with
    | num t x =>
      have hok : ValOk m (.num t x) := h (n, .num t x) (by simp)
      have e : encFs ((n, .num t x) :: fs) = fRaw [(n, .num t x)] ++ encFs fs := by
        simp [encFs, fRaw, encodeVal, rawVal]
      rw [e, List.append_assoc] at hf
      simp only [paramDks, paramArrs, Reader.getParams, resolve_noLen hl, bind, Except.bind]
      have hr := Reader.readRec_ok (m := m) hp [(n, .num t x)] (fRaw_pos (f := (n, .num t x)) (by simp) (by simp)) (by simp) (by simpa using hok) hf hc
      have edt : fDt [(n, .num t x)] = [(n, .num t)] := rfl
      rw [edt] at hr
      rw [hr]
      simp only
      have hdrop : r.file.drop (r.cur (r.adv p (fRaw [(n, Val.num t x)]).length)) = encFs fs ++ rest := by
        rw [Reader.cur_adv, ← List.drop_drop, hf, List.drop_left]
      have hle : r.cur (r.adv p (fRaw [(n, Val.num t x)]).length) ≤ r.file.length := by
        have := congrArg List.length hf
        rw [List.length_drop, List.length_append] at this
        rw [Reader.cur_adv]; omega
      rw [ih _ _ (Reader.adv_ok hp _) (fun f hf => h f (by simp [hf])) (fun f hf => hn f (by simp [hf])) (fun f hf => he f (by simp [hf]))
        (fun f hf => hv f (by simp [hf])) ?_ rest hdrop hle]
      · simp only [List.append_assoc, List.singleton_append, Reader.adv_adv]
        rw [e, List.length_append]
        rfl
      · intro a ha
        rw [List.getLast?_concat] at ha
        injection ha with ha
        subst ha
        simp [hn0.symm]
    | str s =>
      have hok : ValOk m (.str s) := h (n, .str s) (by simp)
      have hvl : r.varLen = true := hv (n, .str s) (by simp) ⟨s, rfl⟩
      have e : encFs ((n, .str s) :: fs) = fRaw [lenField s] ++ (fRaw [(n, .str s)] ++ encFs fs) := by
        simp [encFs, fRaw, encodeVal, rawVal, lenField, FType.size]
      rw [e] at hf
      have hlenok : ValOk m (lenField s).2 := by
        have := hok.lt
        simp only [ValOk, lenField, FType.size]
        norm_num; omega
      simp only [paramDks, paramArrs, Reader.getParams, resolve_noLen hl, bind, Except.bind]
      rw [List.append_assoc] at hf
      have hr := Reader.readRec_ok (m := m) hp [lenField s] (fRaw_pos (f := lenField s) (by simp) (by simp [lenField])) (by simp) (by simpa using hlenok) hf hc
      have edt : fDt [lenField s] = [recLenKey] := rfl
      rw [edt] at hr
      rw [hr]
      simp only [List.getLast?_concat]
      have hdrop : r.file.drop (r.cur (r.adv p (fRaw [lenField s]).length)) =
          fRaw [(n, .str s)] ++ (encFs fs ++ rest) := by
        rw [Reader.cur_adv, ← List.drop_drop, hf, List.drop_left, List.append_assoc]
      have hle : r.cur (r.adv p (fRaw [lenField s]).length) ≤ r.file.length := by
        have := congrArg List.length hf
        rw [List.length_drop, List.length_append] at this
        rw [Reader.cur_adv]; omega
      have hres : resolve r.varLen (some ⟨[recLenKey], [[lenField s]]⟩) [(n, .strRaw)] =
          .ok [(n, .strN s.length)] := by
        rw [hvl]
        refine resolve_len (a := ⟨[recLenKey], [[lenField s]]⟩) (rec := [lenField s]) (l := [])
          hok.lt ?_ rfl ?_ n []
        · simp [recLenKey]
        · simp [recField, lenField]
      rw [hres]
      simp only
      have hr2 := Reader.readRec_ok (m := m) (Reader.adv_ok hp _) [(n, .str s)]
        (fRaw_pos (f := (n, .str s)) (by simp) (he (n, .str s) (by simp))) (by simp)
        (by simpa using hok) hdrop hle
      have edt2 : fDt [(n, .str s)] = [(n, .strN s.length)] := rfl
      rw [edt2] at hr2
      rw [hr2]
      simp only
      have hdrop2 : r.file.drop (r.cur (r.adv (r.adv p (fRaw [lenField s]).length)
          (fRaw [(n, Val.str s)]).length)) = encFs fs ++ rest := by
        rw [Reader.cur_adv, ← List.drop_drop, hdrop, List.drop_left]
      have hle2 : r.cur (r.adv (r.adv p (fRaw [lenField s]).length)
          (fRaw [(n, Val.str s)]).length) ≤ r.file.length := by
        have := congrArg List.length hdrop
        rw [List.length_drop, List.length_append] at this
        rw [Reader.cur_adv]; omega
      rw [ih _ _ (Reader.adv_ok (Reader.adv_ok hp _) _) (fun f hf => h f (by simp [hf]))
        (fun f hf => hn f (by simp [hf])) (fun f hf => he f (by simp [hf])) (fun f hf => hv f (by simp [hf])) ?_ rest hdrop2 hle2]
      · simp only [List.append_assoc, List.singleton_append, List.cons_append, List.nil_append,
          Reader.adv_adv]
        rw [e, List.length_append, List.length_append, Nat.add_assoc]
        rfl
      · intro a ha
        rw [List.getLast?_concat] at ha
        injection ha with ha
        subst ha
        simp [hn0.symm]

end Verif.Sdds
