import Verif.Sdds.LemmasNewline
import Verif.Sdds.PropsAscii

/-!
# Property C109: the newline at the end of an ASCII file
-/

namespace Verif.Sdds

/-- **C109.** A newline at the end of an ASCII file makes no difference: whatever the bytes after the header are, with and without buffer and
for every choice of pages, reading gives the same result or the same exception with the newline and without it. -/
theorem ascii_last_newline {ft : FloatText} {d : Doc} {l : Layout} (h : d.AnnouncesText ft l) {body : Bytes} (hne : body ≠ [])
    (hlast : body.getLast? ≠ some 10) {fuel : Nat} (hfuel : d.comments.length + d.namelists.length + 2 ≤ fuel) (buffer : Bool) (maxStr : Nat) :
    ∃ r r', openSdds ft fuel buffer maxStr (utf8 d.text ++ body) = some (.ok r) ∧
      openSdds ft fuel buffer maxStr (utf8 d.text ++ (body ++ [10])) = some (.ok r') ∧
      ∀ c fuel' sel, r'.readText c fuel' sel = r.readText c fuel' sel := by
  obtain ⟨ps, cs, ho⟩ := open_bodies h hfuel buffer maxStr
  refine ⟨_, _, ho body, ho (body ++ [10]), fun c fuel' sel => ?_⟩
  apply SameReader.read
  · refine ⟨rfl, ?_⟩
    simp only
    rw [← List.append_assoc]
    exact bufferLines_newline (by simp [hne]) (by rw [List.getLast?_append_of_ne_nil _ hne]; exact hlast)
  · rfl
  · simp only [List.drop_left]
    exact fileLinesFrom_newline body [] hlast fun h0 => absurd h0 hne

/-- Two rows "1 2" and "3 -4", with and without the newline at the end. -/
example : ∃ r r', openSdds exText 20 false 50 (utf8 exDocT.text ++ [97, 32, 98, 10, 50, 10, 49, 32, 50, 10, 51, 32, 45, 52]) = some (.ok r) ∧
    openSdds exText 20 false 50 (utf8 exDocT.text ++ ([97, 32, 98, 10, 50, 10, 49, 32, 50, 10, 51, 32, 45, 52] ++ [10])) = some (.ok r') ∧
    ∀ c fuel' sel, r'.readText c fuel' sel = r.readText c fuel' sel :=
  ascii_last_newline exDocT_announces (by simp) (by simp) (by decide) false 50

end Verif.Sdds
