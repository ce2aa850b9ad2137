import Verif.Sdds.Ascii

/-!
# Model of several calls of `readSDDS.read`

The lists `_parameters._data` and `_columns._data` live as long as the object, so a call starts with the pages that earlier calls kept.
-/

namespace Verif.Sdds

/-- The pages kept when the body of the page loop raises an exception (SDDS.py:377-397): the parameters are kept if the columns fail. -/
def Reader.pageLeft (r : Reader) (wanted : Bool) (p : Pos) (acc : Pages) : Pages :=
  match r.getParams r.paramKeys [] p with
  | .error _ => acc
  | .ok (pd, _) =>
    if wanted then
      match addPage r.maxStr [pd] with
      | .error _ => acc
      | .ok pg => { acc with params := acc.params ++ [pg] }
    else acc

/-- The page loop (SDDS.py:363-397) with the pages kept, also if it ends with an exception. -/
def Reader.loopKept (r : Reader) (sel : Option (List Nat)) : Nat → Nat → Pos → Pages → Option (Pages × Except PyErr Unit)
  | 0, _, _, _ => none
  | fuel + 1, page, p, acc =>
    if pastPages sel page then some (acc, .ok ())
    else if r.fileEnd p then some (acc, .ok ())
    else
      match r.readPage sel.isNone (wantedPage sel page) p acc with
      | .error e => some (r.pageLeft (wantedPage sel page) p acc, .error e)
      | .ok (acc', p') => r.loopKept sel fuel (page + 1) p' acc'

/-- The same for ASCII files. -/
def Reader.textLeft (r : Reader) (c : Conv) (wanted : Bool) (p : TPos) (acc : Pages) : Pages :=
  match r.textParams c r.paramKeys [] p with
  | .error _ => acc
  | .ok (pd, _) =>
    if wanted then
      match textMerge r.maxStr r.paramKeys pd with
      | .error _ => acc
      | .ok pg => { acc with params := acc.params ++ [pg] }
    else acc

/-- The same for ASCII files. -/
def Reader.textKept (r : Reader) (c : Conv) (sel : Option (List Nat)) : Nat → Nat → TPos → Pages → Option (Pages × Except PyErr Unit)
  | 0, _, _, _ => none
  | fuel + 1, page, p, acc =>
    if pastPages sel page then some (acc, .ok ())
    else if r.textEnd p then some (acc, .ok ())
    else
      match r.textPage c sel.isNone (wantedPage sel page) p acc with
      | .error e => some (r.textLeft c (wantedPage sel page) p acc, .error e)
      | .ok (acc', p') => r.textKept c sel fuel (page + 1) p' acc'

/-- The arrays that `concat` makes of the pages kept (SDDS.py:398-401). -/
def exposed (pg : Pages) : Except PyErr Pages := do
  let ps ← concat pg.params
  let cs ← concat pg.cols
  .ok ⟨ps, cs⟩

/-- One call of `read` (SDDS.py:324-401) on an object that kept pages: the pages it keeps now, and the arrays or the exception. -/
def Reader.call (r : Reader) (c : Conv) (fuel : Nat) (kept : Pages) (sel : Option (List Nat)) : Option (Pages × Except PyErr Pages) :=
  if sel = some [] then some (kept, .error .valueError)
  else
    let loop := if r.ascii then r.textKept c sel fuel 0 ⟨if r.buffer then r.lineCount else 0, fileLines (r.file.drop r.headerEnd)⟩ kept
      else r.loopKept sel fuel 0 ⟨if r.buffer then r.headerEnd else 0, r.headerEnd⟩ kept
    match loop with
    | none => none
    | some (pg, .error e) => some (pg, .error e)
    | some (pg, .ok ()) => some (pg, exposed pg)

/-- Several calls of `read`, with the result of the last one. A call that raises does not end the sequence. -/
def Reader.calls (r : Reader) (c : Conv) (fuel : Nat) : Pages → List (Option (List Nat)) → Option (Pages × Except PyErr Pages)
  | kept, [] => some (kept, exposed kept)
  | kept, [sel] => r.call c fuel kept sel
  | kept, sel :: sels =>
    match r.call c fuel kept sel with
    | none => none
    | some (kept', _) => r.calls c fuel kept' sels

end Verif.Sdds
