import Verif.Bunch.RoundedKV
import Verif.Bunch.RoundedPotential

/-!
# Model of the distributions of `NonlinearBunch` of `rsptcls/bunch.py` with rounded arithmetic

As `NBunch.distributeKV`, `NBunch.distributeWaterbag` and `NBunch.distributeGaussian`, with every operation rounded (`Verif.Py.Rounding`). What
`np.cos`, `np.sin`, `np.log`, `np.arccosh` and `np.arccos` give are parameters. Overflow and underflow are not modelled.
-/

namespace Verif.Bunch

open Verif.Py Verif.Kinematic

variable (R : Rounding)

/-- `compute_potential` (bunch.py:669-697) as the loops use it: `none` is nan. Infinite values do not occur (`potential_no_inf`). -/
noncomputable def rPot (F : Arc) (t c x y : ℝ) : Except PyErr (Option ℝ) :=
  match rPotential R F t c x y with
  | .error e => .error e
  | .ok (.num v) => .ok (some v)
  | .ok _ => .ok none

/-- `whatsleft` (bunch.py:285-288). -/
noncomputable def rWhatsleft (pot : ℝ → ℝ → Except PyErr (Option ℝ)) (emit y : ℝ) : Except PyErr (Option ℝ) :=
  match pot 0 y with
  | .error e => .error e
  | .ok v => .ok (v.map fun v => R.rnd (emit - v))

/-- The loop of `NonlinearBunch.distribute_KV` (bunch.py:497-523) with `n` particles still to be made, as `kvLoop`. -/
noncomputable def rNKvLoop (T : Trig) (pot : ℝ → ℝ → Except PyErr (Option ℝ)) (sh : Shape) (quiet : Bool) (h xMax yMax : ℝ) :
    Nat → Nat → List ℝ → Except PyErr (List P4)
  | _, 0, _ => .ok []
  | 0, _ + 1, _ => .error .notModelled
  | fuel + 1, n + 1, a :: b :: s =>
    match pot (rTrialCoord R a xMax) (rTrialCoord R b yMax) with
    | .error e => .error e
    | .ok none => rNKvLoop T pot sh quiet h xMax yMax fuel (n + 1) s
    | .ok (some v) =>
      if v < h then
        match s with
        | [] => .error .notModelled
        | r :: s' =>
          let q := rPlace R T sh h v (rTrialCoord R a xMax) (rTrialCoord R b yMax) r
          match rNKvLoop T pot sh quiet h xMax yMax fuel (if quiet then n - 3 else n) s' with
          | .error e => .error e
          | .ok l => .ok (q :: ((if quiet then mirrors q else []) ++ l))
      else rNKvLoop T pot sh quiet h xMax yMax fuel (n + 1) s
  | _ + 1, _ + 1, _ => .error .notModelled

/-- `NonlinearBunch.distribute_KV` (bunch.py:468-525). -/
noncomputable def rNDistributeKV (T : Trig) (F : Arc) (newton : Newton) (draws : List ℝ) (b : NBunch) : NBunch × Option PyErr :=
  b.lift fun s =>
    if s.emitx ≠ s.emity then (s, some .assertionError)
    else
      let s' := { s with emit := s.emitx }
      s'.finish (
        if s'.emit < 0 ∨ s'.shape.bx ≤ 0 ∨ s'.shape.byy ≤ 0 then .error .notModelled
        else match newton (rWhatsleft R (rPot R F b.t b.c) s'.emit) (R.rnd (Real.sqrt s'.emit)) with
          | .error e => .error e
          | .ok yMax => rNKvLoop R T (rPot R F b.t b.c) s'.shape s'.quiet s'.emit b.c yMax draws.length s'.npart draws)

/-- The loop that looks for a position (bunch.py:557-561 and 628-632), as `findPosition`. -/
noncomputable def rFindPosition (pot : ℝ → ℝ → Except PyErr (Option ℝ)) (h xMax yMax : ℝ) :
    List ℝ → Except PyErr (ℝ × ℝ × Option ℝ × List ℝ)
  | a :: b :: s =>
    match pot (rTrialCoord R a xMax) (rTrialCoord R b yMax) with
    | .error e => .error e
    | .ok none => .ok (rTrialCoord R a xMax, rTrialCoord R b yMax, none, s)
    | .ok (some v) =>
      if h ≤ v then rFindPosition pot h xMax yMax s else .ok (rTrialCoord R a xMax, rTrialCoord R b yMax, some v, s)
  | _ => .error .notModelled

/-- The inner part of the waterbag and the Gaussian loop (bunch.py:549-582 and 618-652), as `oneParticle`. -/
noncomputable def rOneParticle (T : Trig) (newton : Newton) (pot : ℝ → ℝ → Except PyErr (Option ℝ)) (sh : Shape) (emit c h : ℝ) (s : List ℝ) :
    Except PyErr (Option P4 × List ℝ) :=
  if h < 0 ∨ 10 ^ 10 < h then .error .notModelled
  else match newton (rWhatsleft R pot emit) (R.rnd (Real.sqrt h)) with
    | .error e => .error e
    | .ok yMax => match rFindPosition R pot h c yMax s with
      | .error e => .error e
      | .ok (_, _, none, s') => .ok (none, s')
      | .ok (x, y, some v, s') => match s' with
        | [] => .error .notModelled
        | r :: s'' => .ok (some (rPlace R T sh h v x y r), s'')

/-- The loop of `distribute_waterbag` (bunch.py:540-582), as `waterbagLoop`. -/
noncomputable def rWaterbagLoop (T : Trig) (newton : Newton) (pot : ℝ → ℝ → Except PyErr (Option ℝ)) (sh : Shape) (quiet : Bool) (emit c : ℝ) :
    Nat → Nat → List ℝ → Except PyErr (List P4)
  | _, 0, _ => .ok []
  | 0, _ + 1, _ => .error .notModelled
  | fuel + 1, n + 1, s => match firstPositive s with
    | none => .error .notModelled
    | some (u, s') => match rOneParticle R T newton pot sh emit c (R.rnd (emit * R.rnd (Real.sqrt u))) s' with
      | .error e => .error e
      | .ok (none, s'') => rWaterbagLoop T newton pot sh quiet emit c fuel (n + 1) s''
      | .ok (some q, s'') => match rWaterbagLoop T newton pot sh quiet emit c fuel (if quiet then n - 3 else n) s'' with
        | .error e => .error e
        | .ok l => .ok (q :: ((if quiet then mirrors q else []) ++ l))

/-- `distribute_waterbag` (bunch.py:528-584). -/
noncomputable def rNDistributeWaterbag (T : Trig) (F : Arc) (newton : Newton) (draws : List ℝ) (b : NBunch) : NBunch × Option PyErr :=
  b.lift fun s => s.finish
    (if s.shape.bx ≤ 0 ∨ s.shape.byy ≤ 0 then .error .notModelled
     else rWaterbagLoop R T newton (rPot R F b.t b.c) s.shape s.quiet s.emit b.c draws.length s.npart draws)

/-- The search for an energy below the cutoff (bunch.py:605-612), as `erlang`; `log` is what `np.log` gives. -/
noncomputable def rErlang (log : ℝ → ℝ) (cutoff : ℝ) : List ℝ → Option (ℝ × List ℝ)
  | a :: b :: s =>
    if R.rnd (a * b) ≤ 0 then rErlang log cutoff s
    else if cutoff < R.rnd (-1 * log (R.rnd (a * b))) then rErlang log cutoff s
    else some (R.rnd (-1 * log (R.rnd (a * b))), s)
  | _ => none

/-- The loop of `NonlinearBunch.distribute_Gaussian` (bunch.py:604-652), as `gaussLoop`. -/
noncomputable def rGaussLoop (T : Trig) (log : ℝ → ℝ) (newton : Newton) (pot : ℝ → ℝ → Except PyErr (Option ℝ)) (sh : Shape) (quiet : Bool)
    (emit c cutoff : ℝ) : Nat → Nat → ℝ → List ℝ → Except (PyErr × ℝ) (List P4)
  | _, 0, _, _ => .ok []
  | 0, _ + 1, cur, _ => .error (.notModelled, cur)
  | fuel + 1, n + 1, cur, s => match rErlang R log cutoff s with
    | none => .error (.notModelled, cur)
    | some (th, s') => match rOneParticle R T newton pot sh (R.rnd (emit * th)) c (R.rnd (emit * th)) s' with
      | .error e => .error (e, R.rnd (emit * th))
      | .ok (none, s'') => rGaussLoop T log newton pot sh quiet emit c cutoff fuel (n + 1) (R.rnd (emit * th)) s''
      | .ok (some q, s'') =>
        match rGaussLoop T log newton pot sh quiet emit c cutoff fuel (if quiet then n - 3 else n) (R.rnd (emit * th)) s'' with
        | .error e => .error e
        | .ok l => .ok (q :: ((if quiet then mirrors q else []) ++ l))

/-- `NonlinearBunch.distribute_Gaussian` (bunch.py:587-657). -/
noncomputable def rNDistributeGaussian (T : Trig) (F : Arc) (log : ℝ → ℝ) (newton : Newton) (draws : List ℝ) (b : NBunch) :
    NBunch × Option PyErr :=
  b.lift fun s =>
    if s.shape.bx ≤ 0 ∨ s.shape.byy ≤ 0 ∨ 10 ^ 10 ≤ b.cutoff then (s, some .notModelled)
    else match rGaussLoop R T log newton (rPot R F b.t b.c) s.shape s.quiet s.emit b.c b.cutoff draws.length s.npart s.emit draws with
      | .error (e, cur) => ({ s with emit := cur }, some e)
      | .ok l => s.finish (.ok l)

end Verif.Bunch
