import Verif.Lemmas.MeshFile
import Verif.Props.Assemblage
import Verif.Lemmas.Dict

/-! C70: writing a mesh file and reading it again. -/

namespace Bugi

/-- What the standard library promises about the printing of numbers: a number printed with `n` digits is an optional sign, digits, a point, and `n` digits; it is read
back as a number that is not further away than one unit of the last digit and that is printed in the same way; a number printed without a fixed number of digits is
read back exactly. -/
structure Text.Ok {K : Type} [Field K] [LinearOrder K] (T : Text K) : Prop where
  form : ∀ n x, 0 < n → ∃ sg a b, (sg = [] ∨ sg = ['-']) ∧ a ≠ [] ∧ Parse.Digits a ∧ Parse.Digits b ∧ b.length = n ∧ T.fix n x = sg ++ a ++ '.' :: b
  back : ∀ n x, 0 < n → ∃ y, T.rd (T.fix n x) = some y ∧ |y - x| ≤ (1 / 10) ^ n ∧ T.fix n y = T.fix n x
  exact : ∀ x, T.rd (T.shw x) = some x
  line : ∀ x, ∀ c ∈ T.shw x, Parse.isEol c = false

namespace MeshFile
open Parse Assemblage

variable {K : Type} [Field K] [LinearOrder K]

/-- What is needed of an assemblage so that it can be written: a known material, points and forces in the plane, numbers of existing nodes. -/
structure Writable (a : Assemblage K) : Prop where
  material : a.material = .al6061 ∨ a.material = .test
  nodes : ∀ p ∈ a.nodes, ∃ x y, p = Point.pt2 x y
  elements : ∀ el ∈ a.elements, el.ids.1 < a.nodes.length ∧ el.ids.2.1 < a.nodes.length ∧ el.ids.2.2 < a.nodes.length
  constraints : a.constraints.length = a.nodes.length
  conc : (hkeys a.conc).Nodup
  concIn : ∀ e ∈ a.conc, e.1 < a.nodes.length ∧ ∃ x y, e.2 = Point.pt2 x y
  lines : (hkeys a.lines).Nodup
  linesIn : ∀ e ∈ a.lines, e.1.1 < a.nodes.length ∧ e.1.2 < a.nodes.length ∧ ∃ x y, e.2 = Point.pt2 x y
  sizes : a.nodes.length < 2 ^ 64 ∧ a.elements.length < 2 ^ 64 ∧ a.lines.length < 2 ^ 64

/-- The numbers `y` is what is read from `x` printed with `n` digits, and is near to it. -/
def Near (T : Text K) (n : Nat) (x y : K) : Prop := T.rd (T.fix n x) = some y ∧ |y - x| ≤ (1 / 10) ^ n

/-- Points that are near in both coordinates. -/
def NearPt (T : Text K) (n : Nat) (p q : Point K) : Prop := ∃ x y x' y', p = Point.pt2 x y ∧ q = Point.pt2 x' y' ∧ Near T n x x' ∧ Near T n y y'

/-- The same kind of condition with a near thickness. -/
inductive NearCond (T : Text K) : Condition K → Condition K → Prop
  | strain {t t' : K} : Near T 5 t t' → NearCond T (.planeStrain t) (.planeStrain t')
  | stress {t t' : K} : Near T 5 t t' → NearCond T (.planeStress t) (.planeStress t')
  | axi : NearCond T .axisymmetric .axisymmetric

/-- What is read back from the text of `a`: the same material, elements, constraints, and loaded nodes, and near points and forces. -/
structure ReadBack (T : Text K) (a b : Assemblage K) : Prop where
  material : b.material = a.material
  condition : NearCond T a.condition b.condition
  nodes : List.Forall₂ (NearPt T 6) a.nodes b.nodes
  elements : List.Forall₂ (fun e f : Element K => f.ids = e.ids ∧ f.material = b.material ∧ f.condition = b.condition ∧
    b.nodes[f.ids.1]? = some f.points.1 ∧ b.nodes[f.ids.2.1]? = some f.points.2.1 ∧ b.nodes[f.ids.2.2]? = some f.points.2.2) a.elements b.elements
  constraints : b.constraints = a.constraints
  conc : List.Forall₂ (fun e f => f.1 = e.1 ∧ NearPt T 3 e.2 f.2) a.conc b.conc
  lines : List.Forall₂ (fun e f => f.1 = e.1 ∧ NearPt T 3 e.2 f.2) a.lines b.lines

/-! ## What is read for a printed number -/

/-- The number read from a printed one. -/
def rnd (T : Text K) (n : Nat) (x : K) : K := (T.rd (T.fix n x)).getD 0

/-- The point read from a printed one. -/
def rndPt (T : Text K) (n : Nat) (p : Point K) : Point K := Point.pt2 (rnd T n p.d0) (rnd T n p.d1)

/-- The condition read from a printed one. -/
def rndCond (T : Text K) : Condition K → Condition K
  | .planeStrain t => .planeStrain (rnd T 5 t)
  | .planeStress t => .planeStress (rnd T 5 t)
  | .axisymmetric => .axisymmetric

theorem rnd_spec {T : Text K} (hT : T.Ok) {n : Nat} (hn : 0 < n) (x : K) :
    T.rd (T.fix n x) = some (rnd T n x) ∧ |rnd T n x - x| ≤ (1 / 10) ^ n ∧ T.fix n (rnd T n x) = T.fix n x := by
  obtain ⟨y, h1, h2, h3⟩ := hT.back n x hn
  have : rnd T n x = y := by rw [rnd, h1]; rfl
  rw [this]
  exact ⟨h1, h2, h3⟩

theorem fix_number {T : Text K} (hT : T.Ok) {n : Nat} (hn : 0 < n) (x : K) : IsNumber (T.fix n x) ∧ T.fix n x ≠ [] ∧ ∀ c ∈ T.fix n x, c ≠ '\n' := by
  obtain ⟨sg, a, b, hs, ha, hda, hdb, -, h⟩ := hT.form n x hn
  refine ⟨.inl ⟨sg, a ++ '.' :: b, [], ?_, .dec ha hda hdb, .none, by rw [h]; simp⟩, by rw [h]; simp, ?_⟩
  · rcases hs with rfl | rfl
    · exact .inl rfl
    · exact .inr (.inr rfl)
  · rw [h]
    rintro c hc rfl
    simp only [List.append_assoc, List.mem_append, List.mem_cons] at hc
    rcases hc with hc | hc | hc | hc
    · rcases hs with rfl | rfl <;> simp at hc
    · exact absurd (hda _ hc) (by decide)
    · exact absurd hc (by decide)
    · exact absurd (hdb _ hc) (by decide)

/-- The text of a point. -/
def ptText (T : Text K) (n : Nat) (p : Point K) : Txt := T.fix n p.d0 ++ '/' :: T.fix n p.d1

omit [LinearOrder K] in
theorem pointText_ok (T : Text K) (n : Nat) {p : Point K} (h : ∃ x y, p = Point.pt2 x y) : pointText T n p = .ok (ptText T n p) := by
  obtain ⟨x, y, rfl⟩ := h
  rfl

theorem ptText_read {T : Text K} (hT : T.Ok) {n : Nat} (hn : 0 < n) (p : Point K) (s : Txt) : coords T (ptText T n p ++ '\n' :: s) = .ok (rndPt T n p, '\n' :: s) :=
  coords_ok T (fix_number hT hn p.d0).1 (fix_number hT hn p.d1).1 (rnd_spec hT hn p.d0).1 (rnd_spec hT hn p.d1).1 (fix_number hT hn p.d0).2.1 s

theorem ptText_line {T : Text K} (hT : T.Ok) {n : Nat} (hn : 0 < n) (p : Point K) : ∀ c ∈ ptText T n p, c ≠ '\n' := by
  intro c hc
  simp only [ptText, List.mem_append, List.mem_cons] at hc
  rcases hc with hc | hc | hc
  · exact (fix_number hT hn p.d0).2.2 c hc
  · rw [hc]; decide
  · exact (fix_number hT hn p.d1).2.2 c hc

theorem ptText_again {T : Text K} (hT : T.Ok) {n : Nat} (hn : 0 < n) (p : Point K) : ptText T n (rndPt T n p) = ptText T n p := by
  rw [ptText, ptText]
  show T.fix n (rnd T n p.d0) ++ '/' :: T.fix n (rnd T n p.d1) = _
  rw [(rnd_spec hT hn p.d0).2.2, (rnd_spec hT hn p.d1).2.2]

theorem nearPt_rnd {T : Text K} (hT : T.Ok) {n : Nat} (hn : 0 < n) {p : Point K} (h : ∃ x y, p = Point.pt2 x y) : NearPt T n p (rndPt T n p) := by
  obtain ⟨x, y, rfl⟩ := h
  exact ⟨x, y, _, _, rfl, rfl, ⟨(rnd_spec hT hn x).1, (rnd_spec hT hn x).2.1⟩, ⟨(rnd_spec hT hn y).1, (rnd_spec hT hn y).2.1⟩⟩

/-! ## The text -/

/-- The lines of the nodes. -/
def nodeLines (T : Text K) (ns : List (Point K)) : List Txt := ns.zipIdx.map fun e => natText e.2 ++ ' ' :: ptText T 6 e.1

/-- The lines of the elements. -/
def elementLines (es : List (Nat × Nat × Nat)) : List Txt := es.zipIdx.map fun e => natText e.2 ++ ' ' :: (natText e.1.1 ++ '/' :: natText e.1.2.1 ++ '/' :: natText e.1.2.2)

/-- The constraints that are written. -/
def used (a : Assemblage K) : List (Nat × Constraint K) := a.constraintList.filter fun e => decide (e.2 ≠ .free)

/-- The lines of the constraints. -/
def constraintLines (T : Text K) (cs : List (Nat × Constraint K)) : List Txt := cs.map fun e => natText e.1 ++ ' ' :: e.2.text T

/-- The lines of the forces. -/
def forceLines (T : Text K) (fs : List (Nat × Point K)) : List Txt := fs.map fun e => natText e.1 ++ ' ' :: ptText T 3 e.2

/-- The lines of the distributed forces. -/
def distLines (T : Text K) (fs : List ((Nat × Nat) × Point K)) : List Txt := fs.map fun e => natText e.1.1 ++ ' ' :: natText e.1.2 ++ ' ' :: ptText T 3 e.2

/-- The lines of a section. -/
def sect (name : Txt) (n : Nat) (ls : List Txt) : List Txt := ['$' :: name, "count ".toList ++ natText n] ++ ls ++ ["$End".toList ++ name]

/-- The lines after the first. -/
def allLines (T : Text K) (a : Assemblage K) : List Txt :=
  ["version 1".toList, "material ".toList ++ a.material.text, "condition ".toList ++ a.condition.text T, "$EndHeader".toList] ++
    ([] :: sect "Nodes".toList a.nodes.length (nodeLines T a.nodes)) ++ ([] :: sect "Elements".toList a.descriptors.length (elementLines a.descriptors)) ++
    ([] :: sect "Constraints".toList (used a).length (constraintLines T (used a))) ++ ([] :: sect "Forces".toList a.conc.length (forceLines T a.conc)) ++
    ([] :: sect "DistForces".toList a.lines.length (distLines T a.lines))

theorem write_lines (T : Text K) {a : Assemblage K} (h1 : ∀ p ∈ a.nodes, ∃ x y, p = Point.pt2 x y) (h2 : ∀ e ∈ a.conc, ∃ x y, e.2 = Point.pt2 x y)
    (h3 : ∀ e ∈ a.lines, ∃ x y, e.2 = Point.pt2 x y) : write T a = .ok ("$Header".toList ++ before (allLines T a)) := by
  have hn : ∀ res, nodesText T a.nodes res = .ok (res ++ before (("count ".toList ++ natText a.nodes.length) :: nodeLines T a.nodes)) := by
    intro res
    rw [nodesText, each_lines (line := fun e => natText e.2 ++ ' ' :: ptText T 6 e.1)]
    · simp [before, nodeLines]
    · intro e he res
      rw [pointText_ok T 6 (h1 e.1 (List.fst_mem_of_mem_zipIdx he)), Res.bind_ok]
      simp
  have he : ∀ res, elementsText a.descriptors res = res ++ before (("count ".toList ++ natText a.descriptors.length) :: elementLines a.descriptors) := by
    intro res
    have := foldl_lines a.descriptors.zipIdx (fun e => natText e.2 ++ ' ' :: (natText e.1.1 ++ '/' :: natText e.1.2.1 ++ '/' :: natText e.1.2.2))
      (res ++ "\ncount ".toList ++ natText a.descriptors.length)
    rw [elementsText]
    simpa [before, elementLines] using this
  have hc : ∀ res, constraintsText T a.constraintList res = res ++ before (("count ".toList ++ natText (used a).length) :: constraintLines T (used a)) := by
    intro res
    have := foldl_lines (used a) (fun e => natText e.1 ++ ' ' :: e.2.text T) (res ++ "\ncount ".toList ++ natText (used a).length)
    rw [constraintsText]
    simpa [before, constraintLines, used] using this
  have hf : ∀ res, forcesText T a.conc res = .ok (res ++ before (("count ".toList ++ natText a.conc.length) :: forceLines T a.conc)) := by
    intro res
    rw [forcesText, each_lines (line := fun e => natText e.1 ++ ' ' :: ptText T 3 e.2)]
    · simp [before, forceLines]
    · intro e he res
      rw [pointText_ok T 3 (h2 e he), Res.bind_ok]
      simp
  have hd : ∀ res, distForcesText T a.lines res = .ok (res ++ before (("count ".toList ++ natText a.lines.length) :: distLines T a.lines)) := by
    intro res
    rw [distForcesText, each_lines (line := fun e => natText e.1.1 ++ ' ' :: natText e.1.2 ++ ' ' :: ptText T 3 e.2)]
    · simp [before, distLines]
    · intro e he res
      rw [pointText_ok T 3 (h3 e he), Res.bind_ok]
      simp
  have e0 : "$Header\nversion 1".toList = "$Header".toList ++ before ["version 1".toList] := rfl
  have e3 : "\n$EndHeader\n\n$Nodes".toList = before ["$EndHeader".toList, [], '$' :: "Nodes".toList] := rfl
  have e4 : "\n$EndNodes\n\n$Elements".toList = before ["$End".toList ++ "Nodes".toList, [], '$' :: "Elements".toList] := rfl
  have e5 : "\n$EndElements\n\n$Constraints".toList = before ["$End".toList ++ "Elements".toList, [], '$' :: "Constraints".toList] := rfl
  have e6 : "\n$EndConstraints\n\n$Forces".toList = before ["$End".toList ++ "Constraints".toList, [], '$' :: "Forces".toList] := rfl
  have e7 : "\n$EndForces\n\n$DistForces".toList = before ["$End".toList ++ "Forces".toList, [], '$' :: "DistForces".toList] := rfl
  have e8 : "\n$EndDistForces".toList = before ["$End".toList ++ "DistForces".toList] := rfl
  unfold write
  simp only [hn, Res.bind_ok, he, hc, hf, hd, e0, e3, e4, e5, e6, e7, e8]
  refine congrArg Except.ok ?_
  have e1 : "\nmaterial ".toList = '\n' :: "material ".toList := rfl
  have e2 : "\ncondition ".toList = '\n' :: "condition ".toList := rfl
  rw [e1, e2]
  simp only [allLines, sect, before, List.flatMap_append, List.flatMap_cons, List.flatMap_nil, List.append_assoc, List.cons_append, List.nil_append, List.append_nil]

/-! ## The cleaned text -/

theorem sect_keep {name : Txt} {n : Nat} {ls : List Txt} (h : ∀ l ∈ ls, keep l = true) : (sect name n ls).filter keep = sect name n ls := by
  rw [List.filter_eq_self]
  intro l hl
  simp only [sect, List.mem_append, List.mem_cons, List.not_mem_nil, or_false] at hl
  rcases hl with ((rfl | rfl) | hl) | rfl
  · exact keep_cons _ (by decide)
  · exact keep_cons _ (by decide)
  · exact h l hl
  · exact keep_cons _ (by decide)

theorem sect_line {name : Txt} {n : Nat} {ls : List Txt} (hname : ∀ c ∈ name, c ≠ '\n') (h : ∀ l ∈ ls, ∀ c ∈ l, c ≠ '\n') : ∀ l ∈ sect name n ls, ∀ c ∈ l, c ≠ '\n' := by
  intro l hl c hc
  simp only [sect, List.mem_append, List.mem_cons, List.not_mem_nil, or_false] at hl
  rcases hl with ((rfl | rfl) | hl) | rfl
  · rcases List.mem_cons.1 hc with rfl | hc
    · decide
    · exact hname c hc
  · rcases List.mem_append.1 hc with hc | hc
    · rintro rfl; exact absurd hc (by decide)
    · exact nat_no_newline n c hc
  · exact h l hl c hc
  · rcases List.mem_append.1 hc with hc | hc
    · rintro rfl; exact absurd hc (by decide)
    · exact hname c hc

theorem text_no_newline {T : Text K} (hT : T.Ok) (c : Constraint K) : ∀ d ∈ c.text T, isEol d = false := by
  cases c with
  | free => exact (by decide : ∀ d ∈ "free".toList, isEol d = false)
  | xFixed => exact (by decide : ∀ d ∈ "x".toList, isEol d = false)
  | yFixed => exact (by decide : ∀ d ∈ "y".toList, isEol d = false)
  | xyFixed => exact (by decide : ∀ d ∈ "xy".toList, isEol d = false)
  | angleFixed theta =>
    intro d hd
    rcases List.mem_append.1 hd with hd | hd
    · exact (by decide : ∀ d ∈ "angle:".toList, isEol d = false) d hd
    · exact hT.line theta d hd

theorem eol_newline {c : Char} (h : isEol c = false) : c ≠ '\n' := by
  rintro rfl
  exact absurd h (by decide)

theorem cond_no_newline {T : Text K} (hT : T.Ok) (c : Condition K) : ∀ d ∈ c.text T, d ≠ '\n' := by
  cases c with
  | planeStrain t =>
    intro d hd
    rcases List.mem_append.1 hd with hd | hd
    · rintro rfl; exact absurd hd (by decide)
    · exact (fix_number hT (by decide) t).2.2 d hd
  | planeStress t =>
    intro d hd
    rcases List.mem_append.1 hd with hd | hd
    · rintro rfl; exact absurd hd (by decide)
    · exact (fix_number hT (by decide) t).2.2 d hd
  | axisymmetric => exact (by decide : ∀ d ∈ "axisymmetric".toList, d ≠ '\n')

/-- The lines that are kept. -/
def kept (T : Text K) (a : Assemblage K) : List Txt :=
  ["$Header".toList, "version 1".toList, "material ".toList ++ a.material.text, "condition ".toList ++ a.condition.text T, "$EndHeader".toList] ++
    sect "Nodes".toList a.nodes.length (nodeLines T a.nodes) ++ sect "Elements".toList a.descriptors.length (elementLines a.descriptors) ++
    sect "Constraints".toList (used a).length (constraintLines T (used a)) ++ sect "Forces".toList a.conc.length (forceLines T a.conc) ++
    sect "DistForces".toList a.lines.length (distLines T a.lines)

theorem lines_facts {T : Text K} (hT : T.Ok) {a : Assemblage K} (hm : ∀ c ∈ a.material.text, c ≠ '\n') :
    ("$Header".toList :: allLines T a).filter keep = kept T a ∧ ∀ l ∈ "$Header".toList :: allLines T a, ∀ c ∈ l, c ≠ '\n' := by
  have key : ∀ {ls : List Txt}, (∀ l ∈ ls, ∃ (n : Nat) (t : Txt), l = natText n ++ ' ' :: t ∧ ∀ c ∈ t, c ≠ '\n') → (∀ l ∈ ls, keep l = true) ∧ ∀ l ∈ ls, ∀ c ∈ l, c ≠ '\n' := by
    intro ls h
    constructor
    · intro l hl
      obtain ⟨n, t, rfl, -⟩ := h l hl
      exact keep_nat n _
    · intro l hl c hc
      obtain ⟨n, t, rfl, ht⟩ := h l hl
      rcases List.mem_append.1 hc with hc | hc
      · exact nat_no_newline n c hc
      · rcases List.mem_cons.1 hc with rfl | hc
        · decide
        · exact ht c hc
  have hn := key (ls := nodeLines T a.nodes) (by
    intro l hl
    obtain ⟨e, -, rfl⟩ := List.mem_map.1 hl
    exact ⟨e.2, _, rfl, ptText_line hT (by decide) _⟩)
  have he := key (ls := elementLines a.descriptors) (by
    intro l hl
    obtain ⟨e, -, rfl⟩ := List.mem_map.1 hl
    refine ⟨e.2, _, rfl, ?_⟩
    intro c hc
    simp only [List.mem_append, List.mem_cons] at hc
    rcases hc with (hc | hc | hc) | hc | hc
    · exact nat_no_newline _ c hc
    · rw [hc]; decide
    · exact nat_no_newline _ c hc
    · rw [hc]; decide
    · exact nat_no_newline _ c hc)
  have hc := key (ls := constraintLines T (used a)) (by
    intro l hl
    obtain ⟨e, -, rfl⟩ := List.mem_map.1 hl
    exact ⟨e.1, _, rfl, fun c hc => eol_newline (text_no_newline hT e.2 c hc)⟩)
  have hf := key (ls := forceLines T a.conc) (by
    intro l hl
    obtain ⟨e, -, rfl⟩ := List.mem_map.1 hl
    exact ⟨e.1, _, rfl, ptText_line hT (by decide) _⟩)
  have hd := key (ls := distLines T a.lines) (by
    intro l hl
    obtain ⟨e, -, rfl⟩ := List.mem_map.1 hl
    refine ⟨e.1.1, natText e.1.2 ++ ' ' :: ptText T 3 e.2, by simp, ?_⟩
    intro c hc
    rcases List.mem_append.1 hc with hc | hc
    · exact nat_no_newline _ c hc
    · rcases List.mem_cons.1 hc with rfl | hc
      · decide
      · exact ptText_line hT (by decide) _ c hc)
  constructor
  · have k0 : ∀ ls : List Txt, List.filter keep ([] :: ls) = List.filter keep ls := fun ls => rfl
    have k1 : ∀ (l : Txt) (ls : List Txt), keep l = true → List.filter keep (l :: ls) = l :: List.filter keep ls := fun l ls h => by rw [List.filter_cons, if_pos h]
    rw [allLines, k1 _ _ (by decide)]
    simp only [List.filter_append, k0, sect_keep hn.1, sect_keep he.1, sect_keep hc.1, sect_keep hf.1, sect_keep hd.1]
    rw [k1 _ _ (by decide), k1 ("material ".toList ++ _) _ (keep_cons (c := 'm') _ (by decide)), k1 ("condition ".toList ++ _) _ (keep_cons (c := 'c') _ (by decide)), k1 _ _ (by decide)]
    rfl
  · intro l hl
    rw [allLines] at hl
    simp only [List.mem_cons, List.mem_append, List.not_mem_nil, or_false] at hl
    rcases hl with rfl | ((((hl | rfl | hl) | rfl | hl) | rfl | hl) | rfl | hl) | rfl | hl
    · decide
    · rcases hl with rfl | rfl | rfl | rfl
      · decide
      · intro c hc
        rcases List.mem_append.1 hc with hc | hc
        · rintro rfl; exact absurd hc (by decide)
        · exact hm c hc
      · intro c hc
        rcases List.mem_append.1 hc with hc | hc
        · rintro rfl; exact absurd hc (by decide)
        · exact cond_no_newline hT _ c hc
      · decide
    · simp
    · exact sect_line (by decide) hn.2 l hl
    · simp
    · exact sect_line (by decide) he.2 l hl
    · simp
    · exact sect_line (by decide) hc.2 l hl
    · simp
    · exact sect_line (by decide) hf.2 l hl
    · simp
    · exact sect_line (by decide) hd.2 l hl

theorem clean_write {T : Text K} (hT : T.Ok) {a : Assemblage K} (hm : ∀ c ∈ a.material.text, c ≠ '\n') :
    clean ("$Header".toList ++ before (allLines T a)) = after (kept T a) := by
  rw [clean_lines (lines_facts hT hm).2, (lines_facts hT hm).1]

theorem material_line {a : Assemblage K} (ha : Writable a) : ∀ c ∈ a.material.text, c ≠ '\n' := by
  rcases ha.material with h | h <;> rw [h]
  · exact (by decide : ∀ c ∈ "AL6061".toList, c ≠ '\n')
  · exact (by decide : ∀ c ∈ "TEST".toList, c ≠ '\n')

/-! ## The header -/

theorem namedValue_ok {α : Type} {name s r : Txt} {f : Parser α} {x : α} (h : f s = .ok (x, '\n' :: r)) : namedValue name f (name ++ ' ' :: s) = .ok (x, r) := by
  have h1 : terminated (tag name) (tag " ".toList) (name ++ ' ' :: s) = .ok ((), s) := terminated_iff.2 (tag_append name _)
  rw [namedValue, delimited, preceded, h1, bind_ok]
  exact terminated_iff.2 h

theorem condition_ok {T : Text K} (hT : T.Ok) (c : Condition K) (s : Txt) : condition T (c.text T ++ '\n' :: s) = .ok (rndCond T c, '\n' :: s) := by
  cases c with
  | planeStrain t =>
    refine alt_first (pmap_iff.2 ⟨rnd T 5 t, preceded_iff.2 ⟨T.fix 5 t ++ '\n' :: s, List.append_assoc _ _ _, ?_⟩, rfl⟩)
    exact double_complete (fix_number hT (by decide) t).1 (rnd_spec hT (by decide) t).1 (ends_cons _ (by decide))
  | planeStress t =>
    refine (alt_second rfl).trans (alt_first (pmap_iff.2 ⟨rnd T 5 t, preceded_iff.2 ⟨T.fix 5 t ++ '\n' :: s, List.append_assoc _ _ _, ?_⟩, rfl⟩))
    exact double_complete (fix_number hT (by decide) t).1 (rnd_spec hT (by decide) t).1 (ends_cons _ (by decide))
  | axisymmetric =>
    refine (alt_second rfl).trans ((alt_second rfl).trans (pmap_iff.2 ⟨(), ?_, rfl⟩))
    exact tag_append _ _

theorem header_ok {T : Text K} (hT : T.Ok) {m : Material K} (hm : m = .al6061 ∨ m = .test) (c : Condition K) (r : Txt) :
    header T (after ["$Header".toList, "version 1".toList, "material ".toList ++ m.text, "condition ".toList ++ c.text T, "$EndHeader".toList] ++ r) =
      .ok ((1, m, rndCond T c), r) := by
  have hm' : Material.ofText m.text = some m := by
    rcases hm with rfl | rfl
    · exact C75_material.1
    · exact C75_material.2
  have ha : ∀ s, alphanumeric (m.text ++ '\n' :: s) = .ok (m.text, '\n' :: s) := by
    intro s
    refine many1_iff.2 ⟨?_, rfl, ?_, ends_cons _ (by decide)⟩
    · rcases hm with rfl | rfl
      · exact (by decide : "AL6061".toList ≠ [])
      · exact (by decide : "TEST".toList ≠ [])
    · rcases hm with rfl | rfl
      · exact (by decide : ∀ c ∈ "AL6061".toList, c.isAlphanum = true)
      · exact (by decide : ∀ c ∈ "TEST".toList, c.isAlphanum = true)
  refine C71_section.2 ⟨"version".toList ++ ' ' :: ('1' :: '\n' :: ("material".toList ++ ' ' :: (m.text ++ '\n' :: ("condition".toList ++ ' ' :: (c.text T ++ '\n' ::
    ("$End".toList ++ "Header".toList ++ '\n' :: r)))))), ?_, ?_⟩
  · simp [after]
  · refine pmapO_iff.2 ⟨(1, m.text, rndCond T c), both_iff.2 ⟨_, namedValue_ok (r := "material".toList ++ ' ' :: (m.text ++ '\n' :: ("condition".toList ++ ' ' ::
      (c.text T ++ '\n' :: ("$End".toList ++ "Header".toList ++ '\n' :: r))))) ?_, both_iff.2 ⟨_, namedValue_ok (ha _), namedValue_ok (condition_ok hT c _)⟩⟩, ?_⟩
    · exact uint_iff.2 ⟨by decide, ['1'], ⟨by decide, by decide, by decide⟩, rfl, ends_cons _ (by decide)⟩
    · rw [hm']
      rfl

/-! ## The assembly -/

/-- An element with the points of its nodes. -/
def withPoints (m : Material K) (c : Condition K) (ns : List (Point K)) (ids : Nat × Nat × Nat) : Element K :=
  ⟨ids, (ns.getD ids.1 (Point.zero 2), ns.getD ids.2.1 (Point.zero 2), ns.getD ids.2.2 (Point.zero 2)), m, c⟩

theorem addElements_ok [IsStrictOrderedRing K] : ∀ (ds : List (Nat × Nat × Nat)) (a : Assemblage K), (∀ p ∈ a.nodes, ∃ x y, p = Point.pt2 x y) →
    (∀ d ∈ ds, d.1 < a.nodes.length ∧ d.2.1 < a.nodes.length ∧ d.2.2 < a.nodes.length) →
    addElements (List.range' 0 a.nodes.length) (ds.map fun d => [d.1, d.2.1, d.2.2]) a = .ok { a with elements := a.elements ++ ds.map (withPoints a.material a.condition a.nodes) } := by
  intro ds
  induction ds with
  | nil =>
    intro a _ _
    rw [addElements, List.map_nil, each_nil]
    simp
  | cons d ds ih =>
    intro a hp hd
    obtain ⟨h1, h2, h3⟩ := hd d (by simp)
    have hr : ∀ i, i < a.nodes.length → vget (List.range' 0 a.nodes.length) i = .ok i := by
      intro i hi
      rw [vget_lt (by simpa using hi)]
      simp
    have hc : each [d.1, d.2.1, d.2.2] [] (fun i l => do
        let n ← vget (List.range' 0 a.nodes.length) i
        .ok (l ++ [n])) = (.ok [d.1, d.2.1, d.2.2] : Res (List Nat)) := by
      rw [each_cons, hr _ h1, Res.bind_ok, Res.bind_ok, each_cons, hr _ h2, Res.bind_ok, Res.bind_ok, each_cons, hr _ h3, Res.bind_ok, Res.bind_ok, each_nil]
      rfl
    have hg : ∀ i, i < a.nodes.length → ∃ x y, a.nodes[i]? = some (Point.pt2 x y) := by
      intro i hi
      obtain ⟨x, y, h⟩ := hp a.nodes[i] (List.getElem_mem hi)
      exact ⟨x, y, by rw [List.getElem?_eq_getElem hi, h]⟩
    obtain ⟨x1, y1, g1⟩ := hg _ h1
    obtain ⟨x2, y2, g2⟩ := hg _ h2
    obtain ⟨x3, y3, g3⟩ := hg _ h3
    have hadd : a.addElement d = .ok { a with elements := a.elements ++ [withPoints a.material a.condition a.nodes d] } := by
      obtain ⟨el, e1, e2, e3⟩ := C46_accepts_all (a := a) (ids := d) (X := ![x1, x2, x3]) (Y := ![y1, y2, y3]) g1 g2 g3
      rw [e3]
      have hb : a.buildElement d = .ok (withPoints a.material a.condition a.nodes d) := by
        simp [Assemblage.buildElement, vget, g1, g2, g3, withPoints, List.getD]
      rw [Assemblage.addElement, hb, Res.bind_ok] at e3
      obtain ⟨_, -, e3⟩ := Res.bind_eq_ok.1 e3
      obtain ⟨_, -, e3⟩ := Res.bind_eq_ok.1 e3
      have := congrArg Assemblage.elements (Except.ok.inj e3)
      simp only at this
      rw [← this]
    rw [addElements, List.map_cons, each_cons, hc, Res.bind_ok]
    show a.addElement d >>= _ = _
    rw [hadd, Res.bind_ok]
    have := ih { a with elements := a.elements ++ [withPoints a.material a.condition a.nodes d] } hp fun t ht => hd t (by simp [ht])
    rw [addElements] at this
    rw [this]
    simp

theorem used_mem {a : Assemblage K} {i : Nat} {c : Constraint K} : (i, c) ∈ used a ↔ a.constraints[i]? = some c ∧ c ≠ .free := by
  rw [used, List.mem_filter, constraintList, List.mem_map]
  simp only [decide_eq_true_eq]
  constructor
  · rintro ⟨⟨e, he, h⟩, hc⟩
    obtain ⟨rfl, rfl⟩ := Prod.mk.inj h
    exact ⟨List.mem_zipIdx_iff_getElem?.1 he, hc⟩
  · rintro ⟨h, hc⟩
    exact ⟨⟨(c, i), List.mem_zipIdx_iff_getElem?.2 h, rfl⟩, hc⟩

theorem used_nodup (a : Assemblage K) : (hkeys (used a)).Nodup := by
  have h1 : (hkeys a.constraintList).Nodup := by
    rw [hkeys, constraintList, List.map_map]
    have : (Prod.fst ∘ fun e : Constraint K × Nat => (e.2, e.1)) = Prod.snd := rfl
    rw [this, List.zipIdx_map_snd]
    exact List.nodup_range'
  exact h1.sublist (List.filter_sublist.map Prod.fst)

theorem addConstraints_ok [IsStrictOrderedRing K] {a b : Assemblage K} (n : Nat) (hb : b.constraints = List.replicate n .free) (ha : a.constraints.length = n) :
    addConstraints (List.range' 0 n) (used a) b = .ok { b with constraints := a.constraints } := by
  obtain ⟨a', h1, l, rfl, h2, h3⟩ := each_ok (xs := used a) (s := b) (f := fun e a => do
      let n ← vget (List.range' 0 n) e.1
      a.addConstraint n e.2)
    (fun pre s => ∃ l : List (Constraint K), s = { b with constraints := l } ∧ l.length = n ∧ ∀ i : Nat, i < n → l[i]? = some ((hget pre i).getD .free))
    ⟨List.replicate n .free, by rw [← hb], by simp, fun i hi => by simp [hget, hi]⟩ (by
    rintro pre e post s hsplit ⟨l, rfl, hl, hv⟩
    have hnd := used_nodup a
    rw [hsplit] at hnd
    have hk := (hkeys_split hnd).1
    have hin : e.1 < n := by
      have := (used_mem (i := e.1) (c := e.2)).1 (by rw [hsplit]; simp)
      rw [← ha]
      exact (List.getElem?_eq_some_iff.1 this.1).1
    have hi : e.1 < l.length := by rw [hl]; exact hin
    have hold : l[e.1] = .free := by
      have := hv _ hin
      rw [List.getElem?_eq_getElem hi, (hget_none_iff _ _).2 hk] at this
      exact Option.some.inj this
    refine ⟨_, by rw [vget_lt (by simpa using hin), Res.bind_ok, List.getElem_range', Nat.zero_add, Nat.one_mul, (C39_add _ _ _).1 hi], l.set e.1 e.2, ?_, by simpa using hl, ?_⟩
    · simp only [hold]
      rfl
    · intro i hi'
      rw [hget_snoc hk, List.getElem?_set]
      by_cases hei : e.1 = i
      · rw [if_pos hei, if_pos hei, if_pos hi]
        rfl
      · rw [if_neg hei, if_neg hei]
        exact hv i hi')
  rw [addConstraints, h1]
  have : l = a.constraints := by
    apply List.ext_getElem?
    intro i
    by_cases hi : i < n
    · have hi' : i < a.constraints.length := by rw [ha]; exact hi
      rw [h3 i hi, List.getElem?_eq_getElem hi']
      by_cases hc : a.constraints[i] = .free
      · rw [(hget_none_iff _ _).2, hc]
        · rfl
        · intro hm
          obtain ⟨⟨j, c⟩, hm', rfl⟩ := List.mem_map.1 hm
          obtain ⟨h4, h5⟩ := used_mem.1 hm'
          rw [List.getElem?_eq_getElem hi'] at h4
          exact h5 ((Option.some.inj h4).symm.trans hc)
      · rw [hget_of_mem (used_nodup a) (used_mem.2 ⟨List.getElem?_eq_getElem hi', hc⟩)]
        rfl
    · rw [List.getElem?_eq_none (by omega), List.getElem?_eq_none (by omega)]
  rw [this]

omit [Field K] [LinearOrder K] in
theorem addForces_ok {n : Nat} (fs : List (Nat × Point K)) (hk : (hkeys fs).Nodup) (hin : ∀ e ∈ fs, e.1 < n) {b : Assemblage K} (hb : b.conc = []) :
    addForces (List.range' 0 n) fs b = .ok { b with conc := fs } := by
  obtain ⟨a', h1, rfl⟩ := each_ok (xs := fs) (s := b) (f := fun e a => do
      let n ← vget (List.range' 0 n) e.1
      .ok (a.addConc n e.2))
    (fun pre s => s = { b with conc := pre }) (by rw [← hb]) (by
    rintro pre e post s hsplit rfl
    rw [hsplit] at hk
    refine ⟨_, by rw [vget_lt (by simpa using hin e (by rw [hsplit]; simp)), Res.bind_ok, List.getElem_range', Nat.zero_add, Nat.one_mul], ?_⟩
    rw [addConc]
    simp only
    rw [hset_new (hkeys_split hk).1])
  rw [addForces, h1]

omit [Field K] [LinearOrder K] in
theorem addDistForces_ok {n : Nat} (fs : List ((Nat × Nat) × Point K)) (hk : (hkeys fs).Nodup) (hin : ∀ e ∈ fs, e.1.1 < n ∧ e.1.2 < n) {b : Assemblage K} (hb : b.lines = []) :
    addDistForces (List.range' 0 n) (fs.map fun e => (e.1.1, e.1.2, e.2)) b = .ok { b with lines := fs } := by
  have : ∀ (post pre : List ((Nat × Nat) × Point K)), fs = pre ++ post →
      addDistForces (List.range' 0 n) (post.map fun e => (e.1.1, e.1.2, e.2)) { b with lines := pre } = .ok { b with lines := fs } := by
    intro post
    induction post with
    | nil =>
      intro pre h
      rw [addDistForces, List.map_nil, each_nil, h, List.append_nil]
    | cons e post ih =>
      intro pre h
      obtain ⟨q1, q2⟩ := hin e (by rw [h]; simp)
      rw [addDistForces, List.map_cons, each_cons, vget_lt (by simpa using q1), Res.bind_ok, vget_lt (by simpa using q2), Res.bind_ok, Res.bind_ok, List.getElem_range',
        List.getElem_range', Nat.zero_add, Nat.one_mul, Nat.zero_add, Nat.one_mul, addLine]
      have hk' := hk
      rw [h] at hk'
      simp only
      rw [hset_new (hkeys_split hk').1]
      exact ih (pre ++ [e]) (by rw [h]; simp)
  have h := this fs [] rfl
  have hb' : { b with lines := [] } = b := by rw [← hb]
  rw [hb'] at h
  exact h

/-! ## C70 -/

/-- What is read from the text of `a`. -/
def backOf (T : Text K) (a : Assemblage K) : Assemblage K where
  nodes := a.nodes.map (rndPt T 6)
  condition := rndCond T a.condition
  material := a.material
  elements := a.descriptors.map (withPoints a.material (rndCond T a.condition) (a.nodes.map (rndPt T 6)))
  constraints := a.constraints
  conc := a.conc.map fun e => (e.1, rndPt T 3 e.2)
  lines := a.lines.map fun e => (e.1, rndPt T 3 e.2)

theorem rndPt_pt2 (T : Text K) (n : Nat) (p : Point K) : ∃ x y, rndPt T n p = Point.pt2 x y := ⟨_, _, rfl⟩

theorem build_ok [IsStrictOrderedRing K] (T : Text K) {a : Assemblage K} (ha : Writable a) :
    build a.material (rndCond T a.condition) (a.nodes.map (rndPt T 6)) (a.descriptors.map fun d => [d.1, d.2.1, d.2.2]) (used a)
      (a.conc.map fun e => (e.1, rndPt T 3 e.2)) ((a.lines.map fun e => (e.1, rndPt T 3 e.2)).map fun e => (e.1.1, e.1.2, e.2)) = .ok (backOf T a) := by
  have hr : ((Assemblage.new a.material (rndCond T a.condition)).addNodes (a.nodes.map (rndPt T 6))).1 = List.range' 0 a.nodes.length := by
    simp [addNodes, Assemblage.new]
  have h1 := addElements_ok a.descriptors ((Assemblage.new a.material (rndCond T a.condition)).addNodes (a.nodes.map (rndPt T 6))).2
    (by
      intro p hp
      simp only [addNodes, Assemblage.new, List.nil_append, List.mem_map] at hp
      obtain ⟨q, -, rfl⟩ := hp
      exact rndPt_pt2 T 6 q)
    (by
      intro d hd
      obtain ⟨el, hel, rfl⟩ := List.mem_map.1 hd
      simpa [addNodes, Assemblage.new] using ha.elements el hel)
  rw [show ((Assemblage.new a.material (rndCond T a.condition)).addNodes (a.nodes.map (rndPt T 6))).2.nodes.length = a.nodes.length by simp [addNodes, Assemblage.new]] at h1
  rw [build]
  simp only [hr]
  rw [h1, Res.bind_ok, addConstraints_ok (a := a) a.nodes.length (by simp [addNodes, Assemblage.new]) ha.constraints, Res.bind_ok,
    addForces_ok (a.conc.map fun e => (e.1, rndPt T 3 e.2)) (by simpa [hkeys, Function.comp_def] using ha.conc) (by
      intro e he
      obtain ⟨e', he', rfl⟩ := List.mem_map.1 he
      exact (ha.concIn e' he').1) rfl, Res.bind_ok,
    addDistForces_ok (a.lines.map fun e => (e.1, rndPt T 3 e.2)) (by simpa [hkeys, Function.comp_def] using ha.lines) (by
      intro e he
      obtain ⟨e', he', rfl⟩ := List.mem_map.1 he
      exact ⟨(ha.linesIn e' he').1, (ha.linesIn e' he').2.1⟩) rfl]
  simp [backOf, addNodes, Assemblage.new]

theorem conc_size {a : Assemblage K} (ha : Writable a) : a.conc.length < 2 ^ 64 := by
  have h : hkeys a.conc ⊆ List.range a.nodes.length := by
    intro k hk
    obtain ⟨e, he, rfl⟩ := List.mem_map.1 hk
    exact List.mem_range.2 (ha.concIn e he).1
  have := (List.subperm_of_subset ha.conc h).length_le
  simp only [hkeys, List.length_map, List.length_range] at this
  exact lt_of_le_of_lt this ha.sizes.1

theorem used_size {a : Assemblage K} (ha : Writable a) : (used a).length < 2 ^ 64 := by
  have h1 : (used a).length ≤ a.constraintList.length := List.length_filter_le _ _
  have h2 : a.constraintList.length = a.nodes.length := by simp [constraintList, ha.constraints]
  exact lt_of_le_of_lt h1 (by rw [h2]; exact ha.sizes.1)

theorem read_kept [IsStrictOrderedRing K] {T : Text K} (hT : T.Ok) {a : Assemblage K} (ha : Writable a) {file r : Txt} (hfile : clean file = after (kept T a) ++ r) :
    read T file = .ok (backOf T a) := by
  have hk : after (kept T a) ++ r = after ["$Header".toList, "version 1".toList, "material ".toList ++ a.material.text, "condition ".toList ++ a.condition.text T, "$EndHeader".toList] ++
    (after (sect "Nodes".toList a.nodes.length (nodeLines T a.nodes)) ++ (after (sect "Elements".toList a.descriptors.length (elementLines a.descriptors)) ++
    (after (sect "Constraints".toList (used a).length (constraintLines T (used a))) ++ (after (sect "Forces".toList a.conc.length (forceLines T a.conc)) ++
    (after (sect "DistForces".toList a.lines.length (distLines T a.lines)) ++ r))))) := by
    rw [kept]
    simp only [after_append, List.append_assoc]
  have s1 := fun r => indexed_section (f := coords T) (name := "Nodes".toList) (es := a.nodes.map fun p => (ptText T 6 p, rndPt T 6 p)) (ls := nodeLines T a.nodes) r
    (by rw [nodeLines, List.zipIdx_map, List.map_map]; rfl) (by simpa using ha.sizes.1)
    (by
      intro e he s
      obtain ⟨p, -, rfl⟩ := List.mem_map.1 he
      exact ptText_read hT (by decide) p s)
  have s2 := fun r => indexed_section (f := numbers) (name := "Elements".toList)
    (es := a.descriptors.map fun d => (natText d.1 ++ '/' :: natText d.2.1 ++ '/' :: natText d.2.2, [d.1, d.2.1, d.2.2])) (ls := elementLines a.descriptors) r
    (by rw [elementLines, List.zipIdx_map, List.map_map]; rfl) (by simpa [descriptors] using ha.sizes.2.1)
    (by
      intro e he s
      obtain ⟨d, hd, rfl⟩ := List.mem_map.1 he
      obtain ⟨el, hel, rfl⟩ := List.mem_map.1 hd
      obtain ⟨q1, q2, q3⟩ := ha.elements el hel
      have hs := ha.sizes.1
      exact numbers_ok (q1.trans hs) (q2.trans hs) (q3.trans hs) s)
  have s3 := fun r => plain_section (f := constraint T) (name := "Constraints".toList) (es := (used a).map fun e => (natText e.1 ++ ' ' :: e.2.text T, (e.1, e.2)))
    (ls := constraintLines T (used a)) r (by rw [constraintLines, List.map_map]; rfl) (by simpa using used_size ha)
    (by
      intro e he s
      obtain ⟨e', he', rfl⟩ := List.mem_map.1 he
      obtain ⟨h1, h2⟩ := used_mem.1 he'
      have := (List.getElem?_eq_some_iff.1 h1).1
      rw [ha.constraints] at this
      exact constraint_ok T (this.trans ha.sizes.1) (C75_constraint T h2 fun theta _ => hT.exact theta) (text_no_newline hT _) s)
  have s4 := fun r => plain_section (f := force T) (name := "Forces".toList) (es := a.conc.map fun e => (natText e.1 ++ ' ' :: ptText T 3 e.2, (e.1, rndPt T 3 e.2)))
    (ls := forceLines T a.conc) r (by rw [forceLines, List.map_map]; rfl) (by simpa using conc_size ha)
    (by
      intro e he s
      obtain ⟨e', he', rfl⟩ := List.mem_map.1 he
      exact force_ok T ((ha.concIn e' he').1.trans ha.sizes.1) (ptText_read hT (by decide) _) s)
  have s5 := fun r => plain_section (f := distForce T) (name := "DistForces".toList)
    (es := a.lines.map fun e => (natText e.1.1 ++ ' ' :: natText e.1.2 ++ ' ' :: ptText T 3 e.2, (e.1.1, e.1.2, rndPt T 3 e.2)))
    (ls := distLines T a.lines) r (by rw [distLines, List.map_map]; rfl) (by simpa using ha.sizes.2.2)
    (by
      intro e he s
      obtain ⟨e', he', rfl⟩ := List.mem_map.1 he
      exact distForce_ok T ((ha.linesIn e' he').1.trans ha.sizes.1) ((ha.linesIn e' he').2.1.trans ha.sizes.1) (ptText_read hT (by decide) _) s)
  simp only [List.length_map, List.map_map] at s1 s2 s3 s4 s5
  have hb := build_ok T ha
  rw [read, hfile, hk, header_ok hT ha.material, lift, Res.bind_ok, if_neg (by simp)]
  simp only [sect]
  rw [s1, lift, Res.bind_ok, s2, lift, Res.bind_ok, s3, lift, Res.bind_ok, s4, lift, Res.bind_ok, s5, lift, Res.bind_ok]
  rw [← hb]
  simp only [Function.comp_def, List.map_map, List.map_id']

theorem read_write [IsStrictOrderedRing K] {T : Text K} (hT : T.Ok) {a : Assemblage K} (ha : Writable a) :
    read T ("$Header".toList ++ before (allLines T a)) = .ok (backOf T a) :=
  read_kept hT ha (r := []) (by rw [clean_write hT (material_line ha), List.append_nil])

theorem backOf_lines {T : Text K} (hT : T.Ok) (a : Assemblage K) : allLines T (backOf T a) = allLines T a := by
  have h1 : (rndCond T a.condition).text T = a.condition.text T := by
    cases a.condition with
    | planeStrain t =>
      show _ ++ T.fix 5 (rnd T 5 t) = _ ++ T.fix 5 t
      rw [(rnd_spec hT (n := 5) (by decide) t).2.2]
    | planeStress t =>
      show _ ++ T.fix 5 (rnd T 5 t) = _ ++ T.fix 5 t
      rw [(rnd_spec hT (n := 5) (by decide) t).2.2]
    | axisymmetric => rfl
  have h2 : nodeLines T (backOf T a).nodes = nodeLines T a.nodes := by
    show nodeLines T (a.nodes.map (rndPt T 6)) = _
    rw [nodeLines, nodeLines, List.zipIdx_map, List.map_map]
    refine List.map_congr_left fun e _ => ?_
    show natText e.2 ++ ' ' :: ptText T 6 (rndPt T 6 e.1) = _
    rw [ptText_again hT (by decide)]
  have h3 : (backOf T a).descriptors = a.descriptors := by
    rw [descriptors]
    show List.map _ (List.map _ _) = _
    rw [List.map_map]
    exact List.map_id' _
  have h4 : forceLines T (backOf T a).conc = forceLines T a.conc := by
    show forceLines T (List.map _ _) = _
    rw [forceLines, forceLines, List.map_map]
    refine List.map_congr_left fun e _ => ?_
    show natText e.1 ++ ' ' :: ptText T 3 (rndPt T 3 e.2) = _
    rw [ptText_again hT (by decide)]
  have h5 : distLines T (backOf T a).lines = distLines T a.lines := by
    show distLines T (List.map _ _) = _
    rw [distLines, distLines, List.map_map]
    refine List.map_congr_left fun e _ => ?_
    show natText e.1.1 ++ ' ' :: natText e.1.2 ++ ' ' :: ptText T 3 (rndPt T 3 e.2) = _
    rw [ptText_again hT (by decide)]
  have h6 : used (backOf T a) = used a := rfl
  have h7 : (backOf T a).nodes.length = a.nodes.length := List.length_map _
  have h8 : (backOf T a).conc.length = a.conc.length := List.length_map _
  have h9 : (backOf T a).lines.length = a.lines.length := List.length_map _
  unfold allLines
  rw [h2, h3, h4, h5, h6, h7, h8, h9]
  show _ ++ _ ++ _ ++ _ ++ _ ++ _ = _
  rw [show (backOf T a).condition = rndCond T a.condition from rfl, h1]
  rfl

theorem backOf_readBack {T : Text K} (hT : T.Ok) {a : Assemblage K} (ha : Writable a) : ReadBack T a (backOf T a) where
  material := rfl
  condition := by
    show NearCond T a.condition (rndCond T a.condition)
    cases a.condition with
    | planeStrain t => exact .strain ⟨(rnd_spec hT (by decide) t).1, (rnd_spec hT (by decide) t).2.1⟩
    | planeStress t => exact .stress ⟨(rnd_spec hT (by decide) t).1, (rnd_spec hT (by decide) t).2.1⟩
    | axisymmetric => exact .axi
  nodes := by
    show List.Forall₂ _ _ (List.map _ _)
    rw [List.forall₂_map_right_iff, List.forall₂_same]
    exact fun p hp => nearPt_rnd hT (by decide) (ha.nodes p hp)
  elements := by
    show List.Forall₂ _ _ (List.map _ (List.map _ _))
    rw [List.forall₂_map_right_iff, List.forall₂_map_right_iff, List.forall₂_same]
    intro el hel
    obtain ⟨h1, h2, h3⟩ := ha.elements el hel
    have hg : ∀ i, i < a.nodes.length → (backOf T a).nodes[i]? = some ((a.nodes.map (rndPt T 6)).getD i (Point.zero 2)) := by
      intro i hi
      show (List.map _ _)[i]? = _
      rw [List.getD_eq_getElem?_getD, List.getElem?_eq_getElem (by simpa using hi)]
      rfl
    exact ⟨rfl, rfl, rfl, hg _ h1, hg _ h2, hg _ h3⟩
  constraints := rfl
  conc := by
    show List.Forall₂ _ _ (List.map _ _)
    rw [List.forall₂_map_right_iff, List.forall₂_same]
    exact fun e he => ⟨rfl, nearPt_rnd hT (by decide) (ha.concIn e he).2⟩
  lines := by
    show List.Forall₂ _ _ (List.map _ _)
    rw [List.forall₂_map_right_iff, List.forall₂_same]
    exact fun e he => ⟨rfl, nearPt_rnd hT (by decide) (ha.linesIn e he).2.2⟩

theorem writable_lines {a : Assemblage K} (ha : Writable a) (T : Text K) : write T a = .ok ("$Header".toList ++ before (allLines T a)) :=
  write_lines T ha.nodes (fun e he => (ha.concIn e he).2) fun e he => (ha.linesIn e he).2.2

/-- **C70.** An assemblage that is written and read again has the same material, elements, constraints and loaded nodes, and the condition, nodes and forces are those
read from the written digits, near to the old ones. It is written as the same text. -/
theorem C70_round_trip [IsStrictOrderedRing K] {T : Text K} (hT : T.Ok) {a : Assemblage K} (ha : Writable a) :
    ∃ txt b, write T a = .ok txt ∧ read T txt = .ok b ∧ ReadBack T a b ∧ write T b = .ok txt := by
  refine ⟨_, backOf T a, writable_lines ha T, read_write hT ha, backOf_readBack hT ha, ?_⟩
  rw [write_lines T, backOf_lines hT]
  · intro p hp
    obtain ⟨q, -, rfl⟩ := List.mem_map.1 hp
    exact rndPt_pt2 T 6 q
  · intro e he
    obtain ⟨q, -, rfl⟩ := List.mem_map.1 he
    exact rndPt_pt2 T 3 q.2
  · intro e he
    obtain ⟨q, -, rfl⟩ := List.mem_map.1 he
    exact rndPt_pt2 T 3 q.2

/-- **C70**, with any order of the maps: if the forces are stored in another order then the written text has the same lines in another order, and what is read is the
same, with the same forces at the same nodes. -/
theorem C70_order [IsStrictOrderedRing K] {T : Text K} (hT : T.Ok) {a a' : Assemblage K} (ha : Writable a) {cs : List (Nat × Point K)}
    {ls : List ((Nat × Nat) × Point K)} (h1 : cs.Perm a.conc) (h2 : ls.Perm a.lines) (ha' : a' = { a with conc := cs, lines := ls }) :
    ∃ txt txt' b b', write T a = .ok txt ∧ write T a' = .ok txt' ∧ (split txt').Perm (split txt) ∧ read T txt = .ok b ∧ read T txt' = .ok b' ∧
      b' = { b with conc := b'.conc, lines := b'.lines } ∧ b'.conc.Perm b.conc ∧ b'.lines.Perm b.lines := by
  subst ha'
  have hw : Writable { a with conc := cs, lines := ls } := {
    material := ha.material
    nodes := ha.nodes
    elements := ha.elements
    constraints := ha.constraints
    conc := (h1.map Prod.fst).nodup_iff.2 ha.conc
    concIn := fun e he => ha.concIn e (h1.mem_iff.1 he)
    lines := (h2.map Prod.fst).nodup_iff.2 ha.lines
    linesIn := fun e he => ha.linesIn e (h2.mem_iff.1 he)
    sizes := ⟨ha.sizes.1, ha.sizes.2.1, by have := ha.sizes.2.2; rwa [← h2.length_eq] at this⟩ }
  refine ⟨_, _, _, _, writable_lines ha T, writable_lines hw T, ?_, read_write hT ha, read_write hT hw, rfl, h1.map _, h2.map _⟩
  rw [split_lines _ _ (lines_facts hT (material_line hw)).2, split_lines _ _ (lines_facts hT (material_line ha)).2]
  refine List.Perm.cons _ ?_
  have hs : ∀ (name : Txt) (n m : Nat) (xs ys : List Txt), n = m → xs.Perm ys → ([] :: sect name n xs : List Txt).Perm ([] :: sect name m ys) := by
    rintro name n _ xs ys rfl h
    exact .cons _ ((h.append_left _).append_right _)
  exact ((hs _ _ _ _ _ h1.length_eq (h1.map _)).append_left _).append (hs _ _ _ _ _ h2.length_eq (h2.map _))

/-- **C70.** Whatever follows the last section is ignored. -/
theorem C70_trailing [IsStrictOrderedRing K] {T : Text K} (hT : T.Ok) {a : Assemblage K} (ha : Writable a) {txt : Txt} (h : write T a = .ok txt) (rest : Txt) :
    read T (txt ++ '\n' :: rest) = read T txt := by
  rw [writable_lines ha] at h
  obtain rfl := Except.ok.inj h
  rw [read_write hT ha]
  refine read_kept hT ha (r := clean rest) ?_
  rw [clean, split_append, List.filter_append, List.flatMap_append]
  exact congrArg (· ++ _) (clean_write hT (material_line ha))

/-- **C70.** Comments and empty lines between the lines of a file do not change what is read. -/
theorem C70_comment (T : Text K) (p q c : Txt) (hc : ∀ d ∈ c, d ≠ '\n') :
    read T (p ++ '\n' :: ('#' :: c) ++ '\n' :: q) = read T (p ++ '\n' :: q) ∧ read T (p ++ '\n' :: '\n' :: q) = read T (p ++ '\n' :: q) := by
  have h1 : clean (p ++ '\n' :: ('#' :: c) ++ '\n' :: q) = clean (p ++ '\n' :: q) := by
    have hk : keep ('#' :: c) = false := by simp [keep, List.isPrefixOf]
    rw [clean, clean, List.append_assoc, List.cons_append, split_append, split_append, split_line (l := '#' :: c), split_append, List.filter_append, List.filter_append,
      List.filter_append, List.filter_cons, hk]
    · rfl
    · intro d hd
      rcases List.mem_cons.1 hd with rfl | hd
      · decide
      · exact hc d hd
  have h2 : clean (p ++ '\n' :: '\n' :: q) = clean (p ++ '\n' :: q) := by
    rw [clean, clean, split_append, split_append, show split ('\n' :: q) = [] :: split q from split_cons (l := []) (by simp) q, List.filter_append, List.filter_append]
    rfl
  constructor
  · unfold read
    rw [h1]
  · unfold read
    rw [h2]

omit [Field K] [LinearOrder K] in
/-- **C70**, the disagreement for bad names: a constraint that cannot be read makes the program panic, instead of giving an error. -/
theorem C70_bad_constraint (T : Text K) {n : Nat} (hn : n < 2 ^ 64) {t : Txt} (ht : Constraint.ofText T t = none) (hl : ∀ d ∈ t, isEol d = false) (s : Txt) :
    constraint T (natText n ++ ' ' :: t ++ '\n' :: s) = .error .panic := by
  have h1 : terminated u64 (tag " ".toList) (natText n ++ ' ' :: t ++ '\n' :: s) = .ok (n, t ++ '\n' :: s) := by
    refine terminated_iff.2 ?_
    have := u64_natText hn (r := ' ' :: (t ++ '\n' :: s)) (ends_cons _ (by decide))
    simpa using this
  rw [constraint, both, h1, bind_ok]
  simp only
  rw [pmapO, notLineEnding_complete hl (.inr ⟨s, rfl⟩), bind_ok]
  simp only [ht]
  rfl

omit [LinearOrder K] in
/-- **C70**, the disagreement for other dimensions: a node on a line makes the writer panic, and the third coordinate of a node in space is not written. -/
theorem C70_other_dimensions (T : Text K) (n : Nat) (x y z : K) : pointText T n (⟨1, x, y, z⟩ : Point K) = .error .panic ∧
    pointText T n (⟨3, x, y, z⟩ : Point K) = pointText T n (Point.pt2 x y) := ⟨rfl, rfl⟩

end MeshFile
end Bugi
