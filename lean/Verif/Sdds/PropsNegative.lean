import Verif.Sdds.PropsCounts
import Verif.Sdds.PropsBuffer

/-!
# C149: pages with a negative row count

A row count of a binary page is a signed number of four bytes. The reader passes it on without a check (SDDS.py:383-394): numpy takes a negative count
as "all items that are left", and `range` of a negative number is empty.
-/

namespace Verif.Sdds

/-- The start of `read` on a file whose first page has the row count `-k`. -/
theorem negative_start {ft : FloatText} {d : Doc} {l : Layout} (h : d.Announces ft l) (hl : l.Ok) (hcols : l.cols ≠ []) (buffer : Bool)
    {maxStr : Nat} {vs : List Val} (hv : List.Forall₂ (fun f v => Fits maxStr f.2 v) l.params vs)
    (hne : Val.str [] ∉ vs) {k : Nat} (hk0 : 0 < k) (hk : k ≤ if buffer then 2147483648 else 57088) (tail : Bytes)
    {fuel : Nat} (hfuel : d.comments.length + d.namelists.length + 2 ≤ fuel) :
    ∃ r, openSdds ft fuel buffer maxStr (negativeFile d k vs tail) = some (.ok r) ∧ r.Describes l ∧ r.buffer = buffer ∧ r.maxStr = maxStr ∧
      ∃ p p1 : Pos, p = ⟨if r.buffer then r.headerEnd else 0, r.headerEnd⟩ ∧ r.cur p1 = (utf8 d.text).length + (4 + (vs.flatMap encodeVal).length) ∧ r.PosOk p1 ∧ r.fileEndZ p.toZ = false ∧
        r.file.drop (r.cur p1) = tail ∧ r.cur p1 ≤ r.file.length ∧ r.getParamsZ r.paramKeys [] p.toZ = .ok (countArrs l (4294967296 - k) vs, p1.toZ) ∧
        r.rowCountZ (countArrs l (4294967296 - k) vs) p1.toZ = .ok (-(k : Int)) := by
  have hk' : k ≤ 2147483648 := by
    cases buffer
    · simp only [Bool.false_eq_true, if_false] at hk; omega
    · simpa using hk
  obtain ⟨ps, hp1, hp2⟩ := params_of _ _ h.params h.fixed
  obtain ⟨cs, hc1, hc2⟩ := cols_of _ _ h.cols h.noLength
  refine ⟨_, open_doc ft h.ok _ hfuel buffer maxStr hp1 hc1 h.mode, ?_⟩
  generalize hr : (Reader.mk (utf8 d.text ++ ((leBytes 4 (4294967296 - k) ++ vs.flatMap encodeVal) ++ tail)) buffer maxStr (utf8 d.text).length
    (d.namelists.length + 2) ps cs false (textTrue (attrVal d.data "no_row_counts".toList))) = r
  have hd : r.Describes l := by
    subst hr
    refine ⟨rfl, ?_, hp2, hc2⟩
    simp only [h.counts]
    rfl
  have hb : r.buffer = buffer := by subst hr; rfl
  have hfile : r.file = utf8 d.text ++ ((leBytes 4 (4294967296 - k) ++ vs.flatMap encodeVal) ++ tail) := by subst hr; rfl
  have hend : r.headerEnd = (utf8 d.text).length := by subst hr; rfl
  have hmax : r.maxStr = maxStr := by subst hr; rfl
  clear hr
  subst hmax
  refine ⟨hd, hb, rfl, ?_⟩
  set P := (vs.flatMap encodeVal).length with hP
  set H := (utf8 d.text).length with hH
  let p0 : Pos := ⟨if r.buffer then r.headerEnd else 0, r.headerEnd⟩
  have hcur : r.cur p0 = H := by
    unfold Reader.cur
    cases hb' : r.buffer <;> simp [hb', p0, hend]
  have hok : r.PosOk p0 := fun hf => by simp [p0, hf]
  have hlen : r.file.length = H + (4 + P) + tail.length := by
    rw [hfile]; simp [hP, hH]; omega
  have hdrop : r.file.drop (r.cur p0) = (leBytes 4 (4294967296 - k) ++ vs.flatMap encodeVal) ++ tail := by
    rw [hcur, hfile, hH, List.drop_left]
  have hpar := countParams_ok hd hl hv hne (x := 4294967296 - k) (by omega) (p := p0) hok hdrop (by omega)
  refine ⟨p0, r.adv p0 (4 + P), rfl, by rw [Reader.cur_adv, hcur], Reader.adv_ok hok _, ?_, ?_, ?_, ?_, ?_⟩
  · rw [fileEndZ_nat]
    unfold Reader.fileEnd
    cases hb' : r.buffer
    · rw [if_neg (by simp)]
      have e : r.file.drop p0.ptr = leBytes 4 (4294967296 - k) ++ (vs.flatMap encodeVal ++ tail) := by
        have : r.cur p0 = p0.ptr := by simp [Reader.cur, hb']
        rw [← this, hdrop, List.append_assoc]
      rw [e]
      rw [← hb, hb'] at hk
      simp only [Bool.false_eq_true, if_false] at hk
      simp only [leBytes, List.cons_append]
      have hbyte : 33 ≤ (4294967296 - k) / 256 % 256 := by omega
      have hlt : (4294967296 - k) / 256 % 256 < 256 := Nat.mod_lt _ (by norm_num)
      generalize hx : UInt8.ofNat ((4294967296 - k) / 256) = x
      have hxn : x.toNat = (4294967296 - k) / 256 % 256 := by
        rw [← hx]
        simp
      have hx10 : x ≠ 10 := by
        rintro rfl
        have : (10 : UInt8).toNat = 10 := rfl
        omega
      have hxs : isSpaceByte x = false := by
        unfold isSpaceByte
        simp only [Bool.or_eq_false_iff, beq_eq_false_iff_ne, Bool.and_eq_false_iff, decide_eq_false_iff_not]
        refine ⟨?_, Or.inr ?_⟩
        · rintro rfl
          have : (32 : UInt8).toNat = 32 := rfl
          omega
        · intro hc
          have h13 : x.toNat ≤ (13 : UInt8).toNat := UInt8.le_iff_toNat_le.mp hc
          have : (13 : UInt8).toNat = 13 := rfl
          omega
      simp only [readline, hx10, if_false, List.all_cons, hxs, Bool.false_and]
    · rw [if_pos rfl, decide_eq_false_iff_not]
      simp only [p0, hb', if_true, hend]
      omega
  · rw [Reader.cur_adv, ← List.drop_drop, hdrop]
    have : (leBytes 4 (4294967296 - k) ++ vs.flatMap encodeVal).length = 4 + P := by simp [hP]
    rw [← this, List.drop_left]
  · rw [Reader.cur_adv, hcur]
    omega
  · have := getParamsZ_nat r r.paramKeys [] p0
    rw [hpar] at this
    exact this
  · have hcne : r.cols ≠ [] := by
      intro h
      have := hd.cols
      rw [h, List.map_nil] at this
      exact hcols (List.map_eq_nil_iff.mp this.symm)
    unfold Reader.rowCountZ
    rw [if_neg hcne, hd.counts]
    simp only [Bool.not_false, if_true, countArrs]
    rw [List.find?_cons_of_pos (by simp [fDt, rcField])]
    simp only [List.head?_cons, Option.bind_some]
    have : recField rowCountsName [rcField (4294967296 - k)] = some (.num .long (4294967296 - k)) := by
      simp [recField, rcField]
    rw [this]
    simp only [FType.size, ofBits_neg hk0 hk']

/-- A row of zeros and empty strings. -/
def emptyRow (cols : List (Str × SType)) : List Val := cols.map fun f => match f.2 with | .num t => .num t 0 | .str => .str []

theorem emptyRow_fits (m : Nat) (cols : List (Str × SType)) : List.Forall₂ (fun f v => Fits m f.2 v) cols (emptyRow cols) := by
  induction cols with
  | nil => exact .nil
  | cons f cols ih =>
    refine .cons ?_ ih
    obtain ⟨n, t⟩ := f
    cases t
    · simp [Fits]
    · exact ⟨by simp, by simp, by simp, by simp⟩

/-- The body of the loop on such a page, when the columns can be read. -/
theorem negative_page {r : Reader} {l : Layout} (hl : l.Ok) {vs : List Val} (hv : List.Forall₂ (fun f v => Fits r.maxStr f.2 v) l.params vs)
    {k : Nat} (hk0 : 0 < k) (hk : k ≤ 2147483648) {p p1 p2 : ZPos} (all : Bool) {cd : List (List Arr)} {pg : Option (List Record)}
    (h1 : r.getParamsZ r.paramKeys [] p = .ok (countArrs l (4294967296 - k) vs, p1))
    (h2 : r.rowCountZ (countArrs l (4294967296 - k) vs) p1 = .ok (-(k : Int)))
    (h3 : r.getColsZ (-(k : Int)) p1 = .ok (cd, p2)) (h4 : addPageZ r.maxStr cd = .ok pg) :
    r.readPageZ all true p ⟨[], []⟩ = .ok (⟨[[rcField (4294967296 - k) :: fields l.params vs]], [pg]⟩, p2) := by
  unfold Reader.readPageZ
  rw [h1]
  simp only [bind, Except.bind, if_true, countParams_merge hl hv (x := 4294967296 - k) (by omega), h2]
  rw [if_neg (by omega)]
  simp only [Bool.or_true, Bool.true_or, if_true, h3, h4, List.nil_append]

theorem frombufferZ_left {buf : Bytes} {dk : Dtype} {size n k o : Nat} (hi : itemSize dk = .ok size) (hs : 0 < size) (hk0 : 0 < k) (ho : o ≤ buf.length)
    (hn : buf.length - o = size * n) : frombufferZ buf dk (-(k : Int)) o = .ok ⟨dk, decodeRows dk size n (buf.drop o)⟩ := by
  unfold frombufferZ
  rw [if_neg (by omega), if_neg (by omega), hi]
  simp only [bind, Except.bind]
  rw [if_neg (by omega), if_neg (by rw [Int.toNat_natCast]; omega), Int.toNat_natCast, hn, if_neg (by simp), Nat.mul_div_cancel_left _ hs]

/-- A negative count reads what is left, here a whole number of rows. -/
theorem readArrZ_left {r : Reader} {dk : Dtype} {size n k : Nat} (hi : itemSize dk = .ok size) (hs : 0 < size) (hk0 : 0 < k) {p : Pos} (hp : r.PosOk p)
    (hc : r.cur p ≤ r.file.length) (hn : (r.file.drop (r.cur p)).length = size * n) :
    r.readArrZ dk (-(k : Int)) p.toZ = .ok (⟨dk, decodeRows dk size n (r.file.drop (r.cur p))⟩,
      if r.buffer then ⟨(p.position : Int) - (size * k : Nat), p.ptr⟩ else ⟨0, r.file.length⟩) := by
  have hlen : r.file.length - r.cur p = size * n := by rw [← List.length_drop]; exact hn
  unfold Reader.readArrZ
  cases hb : r.buffer
  · have hpos := hp hb
    have hcur : r.cur p = p.ptr := by simp [Reader.cur, hb]
    rw [hcur] at hc hlen ⊢
    simp only [Bool.false_eq_true, if_false, fromfileZ, Pos.toZ, hpos, Nat.cast_zero, add_zero, Int.toNat_natCast, hi, bind, Except.bind]
    rw [if_neg (by omega), if_neg (by omega), if_neg (by omega), if_neg (by omega), hlen, Nat.mul_div_cancel_left _ hs]
    simp only
    congr 3
    rw [Nat.mul_comm n size]
    omega
  · have hcur : r.cur p = p.position := by simp [Reader.cur, hb]
    rw [hcur] at hc hlen ⊢
    have hf : frombufferZ r.file dk (-(k : Int)) p.toZ.position = _ := frombufferZ_left hi hs hk0 hc hlen
    rw [if_pos rfl, hf, hi]
    simp only [bind, Except.bind, if_true]
    congr 3
    simp only [Pos.toZ]
    push_cast
    ring

/-- **C149 is false.** Tables of numbers: if the first page says that it has `-k` rows, `read([0])` returns all rows up to the end of the file as the rows of this
page. An unbuffered `read()` returns the same. -/
theorem negative_numbers_fails {ft : FloatText} {d : Doc} {l : Layout} (h : d.Announces ft l) (hl : l.Ok) (hcols : l.cols ≠ [])
    (hs : SType.str ∉ l.cols.map Prod.snd) (buffer : Bool) {maxStr : Nat} {pg : Page} (hpg : PageOk maxStr l pg) (hrows : pg.rows ≠ [])
    {k : Nat} (hk0 : 0 < k) (hk : k ≤ if buffer then 2147483648 else 57088) {sel : Option (List Nat)} (hsel : sel = some [0] ∨ sel = none ∧ buffer = false)
    {fuel : Nat} (hfuel : d.comments.length + d.namelists.length + 2 ≤ fuel) :
    ∃ r, openSdds ft fuel buffer maxStr (utf8 d.text ++ ((leBytes 4 (4294967296 - k) ++ pg.params.flatMap encodeVal) ++ pg.rows.flatMap (·.flatMap encodeVal))) =
        some (.ok r) ∧
      ∀ fuel', 2 ≤ fuel' → r.readZ fuel' sel =
        some (.ok ⟨[[(rowCountsName, .num .long (4294967296 - k)) :: (l.params.map Prod.fst).zip pg.params]], [some (rowRecords l pg)]⟩) := by
  have hk' : k ≤ 2147483648 := by
    cases buffer
    · simp only [Bool.false_eq_true, if_false] at hk; omega
    · simpa using hk
  obtain ⟨r, h1, hd, hb, hm, p, p1, h5, h5', h6, h7, h8, h9, h10, h11⟩ :=
    negative_start h hl hcols buffer hpg.1 hpg.2.2.2.1 hk0 hk (colBytes pg) hfuel
  refine ⟨r, h1, ?_⟩
  intro fuel' hf'
  subst hm
  have hkeys := Reader.colKeys_num hd hpg hcols hs hrows
  have hitem := itemSize_numDt hl hpg hs hrows
  have hspos := rowSize_pos hpg hcols hs hrows
  have hlen := colBytes_length hpg hs
  obtain ⟨cd, g1, g2⟩ := Reader.pageCols_ok (r := r) hd hl hpg hcols hrows h6 (rest := []) (by rw [h8, List.append_nil]) h9
  have hread := Reader.readArr_ok h6 hitem hspos (enc := colBytes pg) (rest := []) (by rw [h8, List.append_nil]) hlen h9
  rw [List.append_nil] at hread
  have hcd : cd = [[⟨numDt l.cols, decodeRows (numDt l.cols) (rowSize l.cols) pg.rows.length (colBytes pg)⟩]] := by
    unfold Reader.getCols at g1
    rw [hkeys] at g1
    simp only [hread, bind, Except.bind] at g1
    injection g1 with g1
    exact (congrArg Prod.fst g1).symm
  have hleft := readArrZ_left (k := k) hitem hspos hk0 h6 h9 (n := pg.rows.length) (by rw [h8]; exact hlen)
  rw [h8] at hleft
  have hget : r.getColsZ (-(k : Int)) p1.toZ = .ok (cd, if r.buffer then ⟨(p1.position : Int) - (rowSize l.cols * k : Nat), p1.ptr⟩ else ⟨0, r.file.length⟩) := by
    unfold Reader.getColsZ
    rw [hkeys]
    simp only [hleft, bind, Except.bind, hcd]
  have hadd : addPageZ r.maxStr cd = .ok (some (rowRecords l pg)) := by
    unfold addPageZ
    rw [if_neg (by rw [hcd]; simp), g2]
    rfl
  obtain ⟨fuel', rfl⟩ : ∃ n, fuel' = n + 2 := ⟨fuel' - 2, by omega⟩
  have hloop : r.pageLoopZ sel (fuel' + 2) 0 p.toZ ⟨[], []⟩ =
      some (.ok ⟨[[rcField (4294967296 - k) :: fields l.params pg.params]], [some (rowRecords l pg)]⟩) := by
    unfold Reader.pageLoopZ
    rw [if_neg (by rcases hsel with rfl | ⟨rfl, _⟩ <;> simp [pastPages]), h7, if_neg (by simp)]
    have hpage := negative_page hl hpg.1 hk0 hk' sel.isNone h10 h11 hget hadd
    have hw : wantedPage sel 0 = true := by rcases hsel with rfl | ⟨rfl, _⟩ <;> simp [wantedPage]
    rw [hw, hpage]
    simp only
    unfold Reader.pageLoopZ
    rcases hsel with rfl | ⟨rfl, hbuf⟩
    · rw [if_pos (by simp [pastPages])]
    · rw [if_neg (by simp [pastPages])]
      rw [← hb] at hbuf
      rw [if_pos]
      rw [hbuf]
      simp [Reader.fileEndZ, hbuf]
  unfold Reader.readZ
  rw [if_neg (by rcases hsel with rfl | ⟨rfl, _⟩ <;> simp)]
  have e : (⟨((if r.buffer then r.headerEnd else 0 : Nat) : Int), r.headerEnd⟩ : ZPos) = p.toZ := by rw [h5]; rfl
  rw [show (⟨if r.buffer then (r.headerEnd : Int) else 0, r.headerEnd⟩ : ZPos) = p.toZ by
    rw [h5]; unfold Pos.toZ; cases r.buffer <;> rfl]
  rw [hloop]
  simp only [bind, Except.bind, concat, concatZ, List.all_nil, if_true]
  rfl

/-- **C149 is false, strings.** Tables with a column of strings: if the first page says that it has `-k` rows, `read([0])` returns `None` as the rows of this page, whatever
follows. -/
theorem negative_strings_fails {ft : FloatText} {d : Doc} {l : Layout} (h : d.Announces ft l) (hl : l.Ok) (hcols : l.cols ≠ [])
    (hs : SType.str ∈ l.cols.map Prod.snd) (buffer : Bool) {maxStr : Nat} {vs : List Val} (hv : List.Forall₂ (fun f v => Fits maxStr f.2 v) l.params vs)
    (hne : Val.str [] ∉ vs) {k : Nat} (hk0 : 0 < k) (hk : k ≤ if buffer then 2147483648 else 57088) (tail : Bytes)
    {fuel : Nat} (hfuel : d.comments.length + d.namelists.length + 2 ≤ fuel) :
    ∃ r, openSdds ft fuel buffer maxStr (utf8 d.text ++ ((leBytes 4 (4294967296 - k) ++ vs.flatMap encodeVal) ++ tail)) = some (.ok r) ∧
      ∀ fuel', 2 ≤ fuel' → r.readZ fuel' (some [0]) =
        some (.ok ⟨[[(rowCountsName, .num .long (4294967296 - k)) :: (l.params.map Prod.fst).zip vs]], [none]⟩) := by
  have hk' : k ≤ 2147483648 := by
    cases buffer
    · simp only [Bool.false_eq_true, if_false] at hk; omega
    · simpa using hk
  obtain ⟨r, h1, hd, hb, hm, p, p1, h5, h5', h6, h7, h8, h9, h10, h11⟩ := negative_start h hl hcols buffer hv hne hk0 hk tail hfuel
  refine ⟨r, h1, ?_⟩
  intro fuel' hf'
  subst hm
  have hget : r.getColsZ (-(k : Int)) p1.toZ = .ok ([], p1.toZ) := by
    have hcne : r.cols ≠ [] := by
      intro h
      have := hd.cols
      rw [h, List.map_nil] at this
      exact hcols (List.map_eq_nil_iff.mp this.symm)
    have hk : r.colKeys = colGroups r.cols [] := by
      unfold Reader.colKeys
      rw [if_neg hcne, hd.binary, if_neg (by simp)]
    have hrow := emptyRow_fits r.maxStr l.cols
    unfold Reader.getColsZ
    rw [hk, colDks_fields hrow r.cols [] hd.cols]
    split
    · rename_i dk he
      exact absurd he (colDks_not_single _ _ (fields_has_str hrow hs) dk)
    · have : (-(k : Int)).toNat = 0 := by omega
      rw [this]
      rfl
  obtain ⟨fuel', rfl⟩ : ∃ n, fuel' = n + 2 := ⟨fuel' - 2, by omega⟩
  have hloop : r.pageLoopZ (some [0]) (fuel' + 2) 0 p.toZ ⟨[], []⟩ = some (.ok ⟨[[rcField (4294967296 - k) :: fields l.params vs]], [none]⟩) := by
    unfold Reader.pageLoopZ
    rw [if_neg (by simp [pastPages]), h7, if_neg (by simp)]
    have hpage := negative_page hl hv hk0 hk' false h10 h11 hget (pg := none) rfl
    rw [show (some [0] : Option (List Nat)).isNone = false from rfl, show wantedPage (some [0]) 0 = true by simp [wantedPage], hpage]
    simp only
    unfold Reader.pageLoopZ
    rw [if_pos (by simp [pastPages])]
  unfold Reader.readZ
  rw [if_neg (by simp)]
  rw [show (⟨if r.buffer then (r.headerEnd : Int) else 0, r.headerEnd⟩ : ZPos) = p.toZ by
    rw [h5]; unfold Pos.toZ; cases r.buffer <;> rfl]
  rw [hloop]
  simp only [bind, Except.bind, concat, concatZ, List.all_nil, if_true]
  rfl

/-- **C149, pages passed over.** Tables of numbers without buffer: if the first page says that it has `-k` rows and `k` rows are longer than the header with the parameters of this
page, `read([1])` raises OSError, if anything more follows. -/
theorem negative_skip_fails {ft : FloatText} {d : Doc} {l : Layout} (h : d.Announces ft l) (hl : l.Ok) (hcols : l.cols ≠ [])
    (hs : SType.str ∉ (l.params ++ l.cols).map Prod.snd) {maxStr : Nat} {vs : List Val} (hv : List.Forall₂ (fun f v => Fits maxStr f.2 v) l.params vs)
    {k : Nat} (hk0 : 0 < k) (hk : k ≤ 57088)
    (hsize : (utf8 d.text).length + 4 + (vs.flatMap encodeVal).length < (l.cols.map fun f => match f.2 with | .num t => t.size | .str => 0).sum * k)
    {tail : Bytes} (htail : LooksEnded tail = false)
    {fuel : Nat} (hfuel : d.comments.length + d.namelists.length + 2 ≤ fuel) :
    ∃ r, openSdds ft fuel false maxStr (utf8 d.text ++ ((leBytes 4 (4294967296 - k) ++ vs.flatMap encodeVal) ++ tail)) = some (.ok r) ∧
      ∀ fuel', 2 ≤ fuel' → r.readZ fuel' (some [1]) = some (.error .osError) := by
  have hsp : SType.str ∉ l.params.map Prod.snd := fun hc => hs (by simp only [List.map_append, List.mem_append]; exact Or.inl hc)
  have hsc : SType.str ∉ l.cols.map Prod.snd := fun hc => hs (by simp only [List.map_append, List.mem_append]; exact Or.inr hc)
  have hne : Val.str [] ∉ vs := by
    intro hc
    obtain ⟨i, hi, he⟩ := List.getElem_of_mem hc
    have hlen := hv.length_eq
    have := (List.forall₂_iff_get.1 hv).2 i (by omega) hi
    simp only [List.get_eq_getElem, he] at this
    cases ht : (l.params[i]'(by omega)).2 with
    | num t => rw [ht] at this; exact this
    | str => exact hsp (List.mem_map.2 ⟨_, List.getElem_mem _, ht⟩)
  obtain ⟨r, h1, hd, hb, hm, p, p1, h5, h5', h6, h7, h8, h9, h10, h11⟩ :=
    negative_start h hl hcols false hv hne hk0 (by simpa using hk) tail hfuel
  refine ⟨r, h1, ?_⟩
  intro fuel' hf'
  subst hm
  have hpg : PageOk r.maxStr l ⟨vs, [zeroRow l.cols]⟩ := by
    refine ⟨hv, ?_, by simp, hne, ?_⟩
    · intro row hrow
      rw [List.mem_singleton.mp hrow]
      exact zeroRow_fits _ _ hsc
    · intro row hrow
      rw [List.mem_singleton.mp hrow]
      exact zeroRow_last _ hsc
  have hkeys := Reader.colKeys_num hd hpg hcols hsc (by simp)
  have hitem := itemSize_numDt hl hpg hsc (by simp)
  change _ < rowSize l.cols * k at hsize
  have hvar : r.varLen = false := Reader.Describes.varLen_false hd hs
  have hptr : p1.ptr = (utf8 d.text).length + 4 + (vs.flatMap encodeVal).length := by
    have hcur : r.cur p1 = p1.ptr := by simp [Reader.cur, hb]
    rw [← hcur, h5']
    omega
  obtain ⟨fuel', rfl⟩ : ∃ n, fuel' = n + 2 := ⟨fuel' - 2, by omega⟩
  have hpage : r.readPageZ false false p.toZ ⟨[], []⟩ = .ok (⟨[], []⟩, ⟨-((rowSize l.cols * k : Nat) : Int), p1.ptr⟩) := by
    unfold Reader.readPageZ
    rw [h10]
    simp only [bind, Except.bind, h11, Bool.false_eq_true, if_false, hvar, Bool.or_false]
    rw [if_neg (by omega), hkeys]
    simp only [List.headD_cons, hitem]
    have : p1.toZ = ⟨0, p1.ptr⟩ := by
      have := h6 hb
      simp [Pos.toZ, this]
    rw [this]
    congr 3
    push_cast
    ring
  have hloop : r.pageLoopZ (some [1]) (fuel' + 2) 0 p.toZ ⟨[], []⟩ = some (.error .osError) := by
    unfold Reader.pageLoopZ
    rw [if_neg (by simp [pastPages]), h7, if_neg (by simp)]
    rw [show (some [1] : Option (List Nat)).isNone = false from rfl, show wantedPage (some [1]) 0 = false by simp [wantedPage], hpage]
    simp only
    unfold Reader.pageLoopZ
    have hfe : r.fileEndZ ⟨-((rowSize l.cols * k : Nat) : Int), p1.ptr⟩ = false := by
      unfold Reader.fileEndZ
      rw [hb, if_neg (by simp)]
      have hcur : r.cur p1 = p1.ptr := by simp [Reader.cur, hb]
      rw [hcur] at h8
      show (match r.file.drop p1.ptr with | [] => true | _ :: rest => (readline rest).1.all isSpaceByte) = false
      rw [h8]
      unfold LooksEnded at htail
      cases tail with
      | nil => cases htail
      | cons b bs => exact htail
    rw [if_neg (by simp [pastPages]), hfe, if_neg (by simp)]
    have herr : r.readPageZ (some [1] : Option (List Nat)).isNone (wantedPage (some [1]) (0 + 1)) ⟨-((rowSize l.cols * k : Nat) : Int), p1.ptr⟩ ⟨[], []⟩ = .error .osError := by
      unfold Reader.readPageZ
      have hpk : ∃ ks, r.paramKeys = [rowCountKey] :: ks := by
        unfold Reader.paramKeys
        rw [hd.binary]
        exact ⟨_, rfl⟩
      obtain ⟨ks, hpk⟩ := hpk
      have hres : resolve r.varLen none [rowCountKey] = .ok [rowCountKey] := by
        rw [hvar]; rfl
      have hit : itemSize [rowCountKey] = .ok 4 := by decide +kernel
      rw [hpk]
      simp only [Reader.getParamsZ, List.getLast?_nil, hres, bind, Except.bind, Reader.readArrZ, hb, Bool.false_eq_true, if_false, fromfileZ, hit]
      rw [if_pos (by omega)]
    rw [herr]
  unfold Reader.readZ
  rw [if_neg (by simp)]
  rw [show (⟨if r.buffer then (r.headerEnd : Int) else 0, r.headerEnd⟩ : ZPos) = p.toZ by
    rw [h5]; unfold Pos.toZ; cases r.buffer <;> rfl]
  rw [hloop]

/-! ## Examples -/


example : ∃ r, openSdds exText 20 true 50 (utf8 exDoc.text ++ ((leBytes 4 (4294967296 - 3) ++ [Val.num .double 7].flatMap encodeVal) ++
      [[Val.num .double 1, .num .long 2], [.num .double 3, .num .long 4]].flatMap (·.flatMap encodeVal))) = some (.ok r) ∧
    ∀ fuel', 2 ≤ fuel' → r.readZ fuel' (some [0]) =
      some (.ok ⟨[[(rowCountsName, .num .long (4294967296 - 3)) :: (exLayout.params.map Prod.fst).zip [Val.num .double 7]]],
        [some (rowRecords exLayout ⟨[.num .double 7], [[.num .double 1, .num .long 2], [.num .double 3, .num .long 4]]⟩)]⟩) :=
  negative_numbers_fails exDoc_announces exLayout_ok (by decide) (by decide) true (pg := ⟨[.num .double 7], [[.num .double 1, .num .long 2], [.num .double 3, .num .long 4]]⟩)
    (exPages_ok 50 _ (by simp [exPages])) (by simp) (by decide) (by decide) (Or.inl rfl) (by decide)

example : ∃ r, openSdds exText 20 false 50 (utf8 exDoc.text ++ ((leBytes 4 (4294967296 - 3) ++ [Val.num .double 7].flatMap encodeVal) ++
      [[Val.num .double 1, .num .long 2], [.num .double 3, .num .long 4]].flatMap (·.flatMap encodeVal))) = some (.ok r) ∧
    ∀ fuel', 2 ≤ fuel' → r.readZ fuel' none =
      some (.ok ⟨[[(rowCountsName, .num .long (4294967296 - 3)) :: (exLayout.params.map Prod.fst).zip [Val.num .double 7]]],
        [some (rowRecords exLayout ⟨[.num .double 7], [[.num .double 1, .num .long 2], [.num .double 3, .num .long 4]]⟩)]⟩) :=
  negative_numbers_fails exDoc_announces exLayout_ok (by decide) (by decide) false (pg := ⟨[.num .double 7], [[.num .double 1, .num .long 2], [.num .double 3, .num .long 4]]⟩)
    (exPages_ok 50 _ (by simp [exPages])) (by simp) (by decide) (by decide) (Or.inr ⟨rfl, rfl⟩) (by decide)

example : ∃ r, openSdds exText 20 false 50 (utf8 exDocS.text ++ ((leBytes 4 (4294967296 - 3) ++ [Val.str [97]].flatMap encodeVal) ++ [1, 2, 3])) = some (.ok r) ∧
    ∀ fuel', 2 ≤ fuel' → r.readZ fuel' (some [0]) =
      some (.ok ⟨[[(rowCountsName, .num .long (4294967296 - 3)) :: (exLayoutS.params.map Prod.fst).zip [Val.str [97]]]], [none]⟩) :=
  negative_strings_fails exDocS_announces exLayoutS_ok (by decide) (by decide) false (by
    refine .cons ?_ .nil
    exact ⟨by decide, by decide, by decide, by decide⟩) (by decide) (by decide) (by decide) _ (by decide)

example : ∃ r, openSdds exText 20 false 50 (utf8 exDoc.text ++ ((leBytes 4 (4294967296 - 1000) ++ [Val.num .double 7].flatMap encodeVal) ++ [1, 2, 3])) = some (.ok r) ∧
    ∀ fuel', 2 ≤ fuel' → r.readZ fuel' (some [1]) = some (.error .osError) :=
  negative_skip_fails exDoc_announces exLayout_ok (by decide) (by decide) (by
    refine .cons ?_ .nil
    exact ⟨rfl, by decide⟩) (by decide) (by decide) (by decide +kernel) (by decide) (by decide)

end Verif.Sdds
