import Verif.Sdds.Utils
import Verif.Sdds.PropsFields

/-!
# C128: helpers of the SDDS module
-/

namespace Verif.Sdds

theorem findSub_prefix {t s : Str} {i : Nat} (h : findSub t s = some i) : t <+: s.drop i := by
  induction s generalizing i with
  | nil =>
    rw [findSub] at h
    split at h
    · rename_i e; rw [List.isEmpty_iff.mp e]; exact List.nil_prefix
    · cases h
  | cons c cs ih =>
    rw [findSub] at h
    split at h
    · rename_i hp
      cases h
      exact List.isPrefixOf_iff_prefix.mp hp
    · cases hf : findSub t cs with
      | none => rw [hf] at h; cases h
      | some j =>
        rw [hf] at h
        cases h
        exact ih hf

theorem findSub_none {t s : Str} (ht : t ≠ []) (h : ∀ i, ¬ t <+: s.drop i) : findSub t s = none := by
  induction s with
  | nil => rw [findSub, if_neg (by rw [List.isEmpty_iff]; exact ht)]
  | cons c cs ih =>
    rw [findSub, if_neg, ih]
    · rfl
    · intro i hi
      exact h (i + 1) hi
    · intro hp
      exact h 0 (List.isPrefixOf_iff_prefix.mp hp)

/-- **C128, false.** `_return_type` finds no type in any text. -/
theorem return_type_fails (s : Str) : returnType s = none := by
  unfold returnType
  split
  · rfl
  · rename_i i hi
    rw [List.find?_eq_none]
    intro key hkey
    obtain ⟨rest, hrest⟩ := findSub_prefix hi
    have hlen : key ≠ [] ∧ key.head? ≠ some 't' ∧ key.length ≤ 6 := by
      revert hkey key
      decide +kernel
    rw [findSub_none hlen.1]
    · simp
    · intro j hj
      have hle := hj.length_le
      rw [List.length_drop, List.length_take] at hle
      have h0 : 0 < key.length := List.length_pos_iff.mpr hlen.1
      have hj0 : j = 0 := by omega
      rw [hj0, List.drop_zero, ← hrest] at hj
      obtain ⟨a, ha⟩ := hj
      obtain ⟨k, ks, rfl⟩ := List.exists_cons_of_ne_nil hlen.1
      have e : "type=".toList = 't' :: "ype=".toList := by decide +kernel
      rw [e, List.cons_append, List.cons_append, List.length_cons, List.take_succ_cons] at ha
      injection ha with h1 _
      exact hlen.2.1 (by rw [h1]; rfl)

/-- **C128.** Among arrays of one field and one record each, as parameters are read, the entry is the value of the first field of that name; other names
raise KeyError or give None as asked. -/
theorem get_entry_exact (fields : List (Key × Val)) (rest : List (List Arr)) (entry : Str) (raiseError : Bool) :
    getEntry ((fields.map fun f => ⟨[f.1], [[(f.1.1, f.2)]]⟩) :: rest) entry raiseError =
      match (fields.find? fun f => f.1.1 = entry), raiseError with
      | some f, _ => .ok (some f.2)
      | none, true => .error .keyError
      | none, false => .ok none := by
  unfold getEntry
  simp only
  rw [List.find?_map]
  have e : ((fun a : Arr => decide ((a.dt.head?.map Prod.fst) = some entry)) ∘ fun f : Key × Val => (⟨[f.1], [[(f.1.1, f.2)]]⟩ : Arr)) =
      fun f => decide (f.1.1 = entry) := by
    funext f
    simp
  rw [e]
  cases h : fields.find? fun f => decide (f.1.1 = entry) with
  | none => cases raiseError <;> rfl
  | some f =>
    have hf := List.find?_some h
    simp only [decide_eq_true_eq] at hf
    simp [recField, hf]

/-- **C128.** The entry of every parameter of a page that was read with buffer is found, as a number of the type of the row count or as a value of the type of the
parameter. -/
theorem get_entry_read {r : Reader} (ha : r.ascii = false) (hb : r.buffer = true) {p : Pos} {x : List Arr × Pos}
    (h : r.getParams r.paramKeys [] p = .ok x) (raiseError : Bool) :
    (∃ v, getEntry [x.1] "row_counts".toList raiseError = .ok (some v) ∧ ∃ n < 2 ^ 32, v = .num .long n) ∧
    ∀ q ∈ r.params, q.fixed = none → ∃ v, getEntry [x.1] q.name raiseError = .ok (some v) := by
  obtain ⟨new, e, hn⟩ := getParams_fields _ _ _ _ h
  rw [List.nil_append] at e
  rw [e]
  have hk : r.paramKeys = [rowCountKey] :: r.params.flatMap (paramKeysOf false r.maxStr) := by
    unfold Reader.paramKeys
    simp [ha]
  have key : ∀ k : Key, [k] ∈ r.paramKeys → (∀ dk ∈ r.paramKeys, ∃ k, dk = [k]) → ∃ v, getEntry [new] k.1 raiseError = .ok (some v) := by
    intro k hk hone
    have hsome : (new.find? fun a => decide ((a.dt.head?.map Prod.fst) = some k.1)).isSome = true := by
      rw [List.find?_isSome]
      obtain ⟨i, hi, hki⟩ := List.mem_iff_getElem.mp hk
      have h2 := List.forall₂_iff_get.mp hn
      have hi' : i < new.length := by rw [← h2.1]; exact hi
      have := h2.2 i hi hi'
      refine ⟨new[i], List.getElem_mem _, ?_⟩
      have hd := this.1
      simp only [List.get_eq_getElem, hki, List.map_cons, List.map_nil] at hd
      cases hdt : (new[i]).dt with
      | nil => rw [hdt] at hd; cases hd
      | cons d ds =>
        rw [hdt] at hd
        simp only [List.map_cons, List.cons.injEq] at hd
        simp [hd.1]
    obtain ⟨a, hf⟩ := Option.isSome_iff_exists.mp hsome
    have hfst := List.find?_some hf
    simp only [decide_eq_true_eq] at hfst
    obtain ⟨i, hi, hai⟩ := List.mem_iff_getElem.mp (List.mem_of_find?_eq_some hf)
    have h2 := List.forall₂_iff_get.mp hn
    have hi' : i < r.paramKeys.length := by rw [h2.1]; exact hi
    have hg := h2.2 i hi' hi
    simp only [List.get_eq_getElem, hai] at hg
    obtain ⟨k', hk'⟩ := hone _ (List.getElem_mem hi')
    rw [hk'] at hg
    obtain ⟨g1, g2, g3, g4⟩ := hg
    have hl := g4 hb
    obtain ⟨rec, hrec⟩ := List.length_eq_one_iff.mp hl
    have hv := g2 rec (by rw [hrec]; simp)
    have hkk : k'.1 = k.1 := by
      cases hdt : a.dt with
      | nil => rw [hdt] at hfst; cases hfst
      | cons d ds =>
        rw [hdt] at g1 hfst
        simp only [List.map_cons, List.cons.injEq] at g1
        simp only [List.head?_cons, Option.map_some, Option.some.injEq] at hfst
        rw [← g1.1, hfst]
    cases hv with
    | @cons _ kv _ _ hv hr =>
      cases hr
      refine ⟨kv.2, ?_⟩
      unfold getEntry
      simp only [hf, hrec]
      simp [recField, hv.1, hkk]
  have hone : ∀ dk ∈ r.paramKeys, ∃ k, dk = [k] := by
    rw [hk]
    intro dk hdk
    rcases List.mem_cons.mp hdk with rfl | hdk
    · exact ⟨_, rfl⟩
    · obtain ⟨q, -, hq⟩ := List.mem_flatMap.mp hdk
      unfold paramKeysOf at hq
      split at hq
      · split at hq
        · simp only [Bool.false_eq_true, if_false, List.mem_cons, List.not_mem_nil, or_false] at hq
          rcases hq with rfl | rfl <;> exact ⟨_, rfl⟩
        · simp only [List.mem_cons, List.not_mem_nil, or_false] at hq
          exact ⟨_, hq⟩
      · cases hq
  constructor
  · rw [hk] at hn
    cases hn with
    | @cons _ a _ _ hg _ =>
      obtain ⟨g1, g2, g3, g4⟩ := hg
      obtain ⟨rec, hrec⟩ := List.length_eq_one_iff.mp (g4 hb)
      have hv := g2 rec (by rw [hrec]; simp)
      cases hv with
      | @cons _ kv _ _ hv hr =>
        cases hr
        obtain ⟨v1, n, hn, v2⟩ := hv
        refine ⟨kv.2, ?_, n, hn, v2⟩
        unfold getEntry
        have hd : (a.dt.head?.map Prod.fst) = some rowCountsName := by
          cases hdt : a.dt with
          | nil => rw [hdt] at g1; cases g1
          | cons d ds =>
            rw [hdt] at g1
            simp only [List.map_cons, List.cons.injEq] at g1
            simp only [List.head?_cons, Option.map_some, Option.some.injEq]
            exact g1.1
        simp only [List.find?_cons]
        have e2 : decide (Option.map Prod.fst a.dt.head? = some "row_counts".toList) = true := decide_eq_true hd
        rw [e2]
        simp only [hrec, List.head?_cons, Option.bind_some]
        have e3 : decide (kv.1 = "row_counts".toList) = true := decide_eq_true v1
        rw [recField, List.find?_cons, e3]
        rfl
  · intro q hq hf
    have : ∃ k : Key, k.1 = q.name ∧ [k] ∈ r.paramKeys := by
      rw [hk]
      by_cases ht : q.type = "string".toList
      · refine ⟨(q.name, .strRaw), rfl, List.mem_cons_of_mem _ (List.mem_flatMap.mpr ⟨q, hq, ?_⟩)⟩
        unfold paramKeysOf
        rw [if_pos hf, if_pos ht]
        simp
      · refine ⟨(q.name, typeKey q.type), rfl, List.mem_cons_of_mem _ (List.mem_flatMap.mpr ⟨q, hq, ?_⟩)⟩
        unfold paramKeysOf
        rw [if_pos hf, if_neg ht]
        simp
    obtain ⟨k, hkn, hkm⟩ := this
    rw [← hkn]
    exact key k hkm hone

/-- **C128, false in general.** An entry that is not the first field of any array is not found, even if it is a later field. -/
theorem get_entry_fails (arrs : List Arr) (rest : List (List Arr)) (entry : Str) (h : ∀ a ∈ arrs, (a.dt.head?.map Prod.fst) ≠ some entry) :
    getEntry (arrs :: rest) entry true = .error .keyError ∧ getEntry (arrs :: rest) entry false = .ok none := by
  have : (arrs.find? fun a => decide ((a.dt.head?.map Prod.fst) = some entry)) = none := by
    rw [List.find?_eq_none]
    intro a ha
    simpa using h a ha
  unfold getEntry
  simp only [this]
  exact ⟨rfl, rfl⟩

/-- **C128.** A number is found in the generator exactly if it was not drawn before, and the generator goes on with the number after it. For a number drawn before
the search never ends. -/
theorem generator_exact (k g : Nat) :
    (g ≤ k → ∃ n, ∀ fuel, n ≤ fuel → memGen k fuel g = some (true, k + 1)) ∧ (k < g → ∀ fuel, memGen k fuel g = none) := by
  constructor
  · intro h
    refine ⟨k - g + 1, ?_⟩
    intro fuel
    induction fuel generalizing g with
    | zero => intro h; omega
    | succ fuel ih =>
      intro hf
      rw [memGen]
      by_cases hk : g = k
      · rw [if_pos hk, hk]
      · rw [if_neg hk]
        exact ih _ (by omega) (by omega)
  · intro h fuel
    induction fuel generalizing g with
    | zero => rfl
    | succ fuel ih =>
      rw [memGen, if_neg (by omega)]
      exact ih _ (by omega)

/-- **C128.** Without selection, `read` finds every page in its generator: it reads all pages. -/
theorem generator_pages (r : Reader) (fuel page : Nat) (p : Pos) (acc : Pages) :
    r.genLoop fuel page page p acc = r.pageLoop none fuel page p acc := by
  induction fuel generalizing page p acc with
  | zero => rfl
  | succ fuel ih =>
    rw [Reader.genLoop, Reader.pageLoop]
    have hm : memGen page (fuel + 1) page = some (true, page + 1) := by rw [memGen, if_pos rfl]
    simp only [hm, pastPages, Bool.false_eq_true, if_false, wantedPage, Option.isNone_none]
    split
    · rfl
    · split
      · rename_i h; simp only [h]
      · rename_i h; simp only [h]; exact ih _ _ _

/-! Examples. -/

example : returnType "&column name=x, type=double, &end".toList = none := return_type_fails _

example (v w : Val) : getEntry [[⟨[(("a".toList, KType.num .double) : Key)], [[("a".toList, v)]]⟩, ⟨[("b".toList, .num .long)], [[("b".toList, w)]]⟩]] "b".toList true =
    .ok (some w) :=
  (get_entry_exact [(("a".toList, KType.num .double), v), (("b".toList, .num .long), w)] [] "b".toList true).trans (by rfl)

example (v w : Val) : getEntry [[⟨[("a".toList, .num .double), ("b".toList, .num .long)], [[("a".toList, v), ("b".toList, w)]]⟩]] "b".toList true = .error .keyError :=
  (get_entry_fails _ [] _ (by simp)).1

example : ∃ x, (exFieldReader [exFieldCol "n" "short"] [1, 0, 0, 0, 7, 0]).getParams [[rowCountKey]] [] ⟨0, 0⟩ = .ok x ∧
    ∃ v, getEntry [x.1] "row_counts".toList true = .ok (some v) ∧ ∃ n < 2 ^ 32, v = .num .long n :=
  have h : (exFieldReader [exFieldCol "n" "short"] [1, 0, 0, 0, 7, 0]).getParams [[rowCountKey]] [] ⟨0, 0⟩ =
      .ok ([⟨[rowCountKey], [[("row_counts".toList, .num .long 1)]]⟩], ⟨4, 0⟩) := by rfl
  ⟨_, h, (get_entry_read rfl rfl h true).1⟩

end Verif.Sdds
