import Verif.Model.Files
import Verif.Props.Labels
import Verif.Props.Decimal

/-! C74: the errors of reading a file. -/

set_option linter.unusedSectionVars false

namespace Bugi
namespace Files
open Parse Mesh

section
variable {K : Type} [Field K] [LinearOrder K] {α : Type}

theorem ofParser_ok {r : Res α} {x : α} : ofParser r = .ok x ↔ r = .ok x := by
  match r with
  | .ok y => simp [ofParser]
  | .error .err => simp [ofParser]
  | .error .panic => simp [ofParser]
  | .error .div0 => simp [ofParser]
  | .error .neg => simp [ofParser]
  | .error .fuel => simp [ofParser]

theorem ofParser_error {r : Res α} {e : FErr} : ofParser r = .error e ↔ (r = .error .err ∧ e = .badParse) ∨ ∃ f, r = .error f ∧ f ≠ .err ∧ e = .fault f := by
  match r with
  | .ok y => simp [ofParser]
  | .error .err => simp [ofParser, eq_comm]
  | .error .panic => simp [ofParser, eq_comm]
  | .error .div0 => simp [ofParser, eq_comm]
  | .error .neg => simp [ofParser, eq_comm]
  | .error .fuel => simp [ofParser, eq_comm]

/-- Reading a file of type `ty` with the reader `f`. -/
def reading (f : Txt → Res α) (ty : Txt) (D : Disk) (path : Txt) : Except FErr α := do
  let e ← extension D path
  let c ← content D path
  if e = ty then ofParser (f c) else .error (.badType e)

/-- What must hold for each result of reading a file of type `ty` with the reader `f`: a missing extension comes first, then one that is not Unicode, then a file
that cannot be opened, then another type, and only then is the content looked at. -/
def Reports (f : Txt → Res α) (ty : Txt) (D : Disk) (path : Txt) (r : Except FErr α) : Prop :=
  match r with
  | .error .noExt => D.ext path = none
  | .error .nonUni => D.ext path = some none
  | .error .noOpen => (∃ e, D.ext path = some (some e)) ∧ D.content path = none
  | .error (.badType e) => D.ext path = some (some e) ∧ e ≠ ty ∧ ∃ c, D.content path = some c
  | .error .badParse => D.ext path = some (some ty) ∧ ∃ c, D.content path = some c ∧ f c = .error .err
  | .error (.fault x) => D.ext path = some (some ty) ∧ ∃ c, D.content path = some c ∧ f c = .error x ∧ x ≠ .err
  | .ok y => D.ext path = some (some ty) ∧ ∃ c, D.content path = some c ∧ f c = .ok y

theorem reading_iff (f : Txt → Res α) (ty : Txt) (D : Disk) (path : Txt) (r : Except FErr α) : reading f ty D path = r ↔ Reports f ty D path r := by
  unfold reading extension content
  rcases h1 : D.ext path with _ | _ | e
  · match r with
    | .ok _ | .error .noExt | .error .nonUni | .error .noOpen | .error (.badType _) | .error .badParse | .error (.fault _) =>
      simp [Reports, h1, bind, Except.bind]
  · match r with
    | .ok _ | .error .noExt | .error .nonUni | .error .noOpen | .error (.badType _) | .error .badParse | .error (.fault _) =>
      simp [Reports, h1, bind, Except.bind]
  · rcases h2 : D.content path with _ | c
    · match r with
      | .ok _ | .error .noExt | .error .nonUni | .error .noOpen | .error (.badType _) | .error .badParse | .error (.fault _) =>
        simp [Reports, h1, h2, bind, Except.bind]
    · by_cases h3 : e = ty
      · subst h3
        match r with
        | .ok _ => simp [Reports, h1, h2, bind, Except.bind, ofParser_ok]
        | .error .noExt | .error .nonUni | .error .noOpen | .error .badParse | .error (.fault _) =>
          simp [Reports, h1, h2, bind, Except.bind, ofParser_error, and_comm]
        | .error (.badType e') =>
          simp only [Reports, h1, h2, bind, Except.bind, if_true, ofParser_error, Option.some.injEq]
          constructor
          · rintro (⟨-, h⟩ | ⟨x, -, -, h⟩) <;> cases h
          · rintro ⟨h, h', -⟩
            exact absurd h.symm h'
      · match r with
        | .ok _ | .error .noExt | .error .nonUni | .error .noOpen | .error .badParse | .error (.fault _) =>
          simp [Reports, h1, h2, bind, Except.bind, h3]
        | .error (.badType e') =>
          simp only [Reports, h1, h2, bind, Except.bind, h3, if_false, Except.error.injEq, FErr.badType.injEq, Option.some.injEq]
          exact ⟨fun h => ⟨h, h ▸ h3, c, rfl⟩, fun h => h.1⟩

/-- **C74.** Each result of reading a mesh file is reported exactly in its case. -/
theorem C74_mesh (T : Text K) (D : Disk) (path : Txt) (r : Except FErr (Assemblage K)) :
    readElas T D path = r ↔ Reports (MeshFile.read T) "bmsh".toList D path r := reading_iff _ _ _ _ _

/-- **C74.** Each result of reading a boundary file is reported exactly in its case. -/
theorem C74_bound (g : Geo K) (T : Text K) (pos : List (K × K)) (D : Disk) (path : Txt) (r : Except FErr (Boundary K)) :
    readBound g T pos D path = r ↔ Reports (BoundFile.readBound g T pos) "bbnd".toList D path r := reading_iff _ _ _ _ _

/-- **C74.** The content of a file of another type, and of no other file, is of no influence. -/
theorem C74_only (T : Text K) (D D' : Disk) (path : Txt) (h : D.ext path = D'.ext path)
    (hc : if D.ext path = some (some "bmsh".toList) then D.content path = D'.content path else (D.content path).isSome = (D'.content path).isSome) :
    readElas T D path = readElas T D' path := by
  unfold readElas extension content
  rw [← h]
  rcases h1 : D.ext path with _ | _ | e
  · rfl
  · rfl
  · by_cases h2 : e = "bmsh".toList
    · subst h2
      rw [if_pos h1] at hc
      rw [hc]
    · rw [if_neg (by rw [h1]; simpa using h2)] at hc
      rcases h3 : D.content path with _ | c <;> rcases h4 : D'.content path with _ | c' <;> rw [h3, h4] at hc
      · simp at hc
      · simp at hc
      · simp only [bind, Except.bind, if_neg h2]

/-- **C74.** A mesh file is only written if its path can be written to, and then the text is that of the assemblage. -/
theorem C74_save (T : Text K) (D : Disk) (path : Txt) (a : Assemblage K) (text : Txt) :
    saveElas T D path a = .ok text ↔ MeshFile.write T a = .ok text ∧ D.writes path = true := by
  unfold saveElas
  rw [Res.bind_eq_ok]
  constructor
  · rintro ⟨t, h1, h2⟩
    split at h2
    · cases h2; exact ⟨h1, ‹_›⟩
    · cases h2
  · rintro ⟨h1, h2⟩
    exact ⟨text, h1, by rw [if_pos h2]⟩

end

/-! ## Examples -/

/-- A directory with three files, one of which cannot be read, and a name that is not Unicode. -/
def folder : Disk where
  ext p := if p = "a".toList then none else if p = "bad".toList then some none else if p = "h.bbnd".toList then some (some "bbnd".toList)
    else if p = "h.txt".toList then some (some "txt".toList) else some (some "bmsh".toList)
  content p := if p = "h.bbnd".toList ∨ p = "h.txt".toList then some BoundFile.hollow else none
  writes _ := true
  saves _ := true

example : readElas MeshFile.exactText folder "a".toList = .error .noExt := (C74_mesh ..).2 (show folder.ext _ = _ by decide +kernel)

example : readElas MeshFile.exactText folder "bad".toList = .error .nonUni := (C74_mesh ..).2 (show folder.ext _ = _ by decide +kernel)

example : readElas MeshFile.exactText folder "m.bmsh".toList = .error .noOpen := (C74_mesh ..).2 ⟨⟨"bmsh".toList, by decide +kernel⟩, by decide +kernel⟩

example : readElas MeshFile.exactText folder "h.txt".toList = .error (.badType "txt".toList) :=
  (C74_mesh ..).2 ⟨by decide +kernel, by decide, BoundFile.hollow, by decide +kernel⟩

/-- A boundary file is not read as a mesh file. -/
example : readElas MeshFile.exactText folder "h.bbnd".toList = .error (.badType "bbnd".toList) :=
  (C74_mesh ..).2 ⟨by decide +kernel, by decide, BoundFile.hollow, by decide +kernel⟩

/-- The boundary file is read as such. -/
example : ∃ b, readBound plainGeo MeshFile.exactText [] folder "h.bbnd".toList = .ok b ∧ b.material = some .al6061 := by
  obtain ⟨b, h1, -, -, -, -, h2, -⟩ := BoundFile.hollow_bound
  exact ⟨b, (C74_bound ..).2 ⟨by decide +kernel, BoundFile.hollow, by decide +kernel, h1⟩, h2⟩

/-- C74_only: other contents of a text file. -/
example : readElas MeshFile.exactText folder "h.txt".toList = readElas MeshFile.exactText { folder with content := fun _ => some [] } "h.txt".toList :=
  C74_only _ _ _ _ rfl (by rw [if_neg (by decide +kernel)]; decide +kernel)

end Files
end Bugi
