import Verif.Model.Cli
import Verif.Props.Study
import Verif.Props.Files
import Verif.Props.Color
import Verif.Props.ToAssemblage

/-! C76: the options of the commands. -/

set_option linter.unusedSectionVars false

namespace Bugi
namespace Cli
open Parse Mesh Files Visual

/-! ## Names -/

/-- The names of the solvers on the command line. -/
def Solver.name : Solver → Txt
  | .denseGauss => "densegauss".toList
  | .cholesky => "cholesky".toList
  | .gaussSeidel => "gaussseidel".toList

/-- The names of the values on the command line. -/
def Value.name : Value → Txt
  | .displacement => "displacement".toList
  | .vonMises => "vonmises".toList

/-- The names of the mesh algorithms on the command line. -/
def Mesher.name : Mesher → Txt
  | .chew => "chew".toList
  | .ruppert => "ruppert".toList

/-- **C76.** A solver is selected by its name, the dense one also by default. -/
theorem C76_solver (o : Option Txt) (s : Solver) : solverOf o = some s ↔ o = some s.name ∨ (o = none ∧ s = .denseGauss) := by
  constructor
  · intro h
    rcases o with _ | t
    · exact .inr ⟨rfl, (Option.some.inj h).symm⟩
    · rw [solverOf] at h
      split_ifs at h with h1 h2 h3
      · obtain rfl := Option.some.inj h; exact .inl (congrArg some h1)
      · obtain rfl := Option.some.inj h; exact .inl (congrArg some h2)
      · obtain rfl := Option.some.inj h; exact .inl (congrArg some h3)
  · rintro (rfl | ⟨rfl, rfl⟩)
    · cases s <;> decide +kernel
    · rfl

/-- **C76.** A value is selected by its name, the displacement also by default. -/
theorem C76_value (o : Option Txt) (s : Value) : valueOf o = some s ↔ o = some s.name ∨ (o = none ∧ s = .displacement) := by
  constructor
  · intro h
    rcases o with _ | t
    · exact .inr ⟨rfl, (Option.some.inj h).symm⟩
    · rw [valueOf] at h
      split_ifs at h with h1 h2
      · obtain rfl := Option.some.inj h; exact .inl (congrArg some h1)
      · obtain rfl := Option.some.inj h; exact .inl (congrArg some h2)
  · rintro (rfl | ⟨rfl, rfl⟩)
    · cases s <;> decide +kernel
    · rfl

/-- **C76.** A mesh algorithm is selected by its name, Chew's also by default. -/
theorem C76_mesher (o : Option Txt) (s : Mesher) : mesherOf o = some s ↔ o = some s.name ∨ (o = none ∧ s = .chew) := by
  constructor
  · intro h
    rcases o with _ | t
    · exact .inr ⟨rfl, (Option.some.inj h).symm⟩
    · rw [mesherOf] at h
      split_ifs at h with h1 h2
      · obtain rfl := Option.some.inj h; exact .inl (congrArg some h1)
      · obtain rfl := Option.some.inj h; exact .inl (congrArg some h2)
  · rintro (rfl | ⟨rfl, rfl⟩)
    · cases s <;> decide +kernel
    · rfl

/-- **C76.** Sizes and counts are an optional plus sign and decimal digits, of a value below the bound. -/
theorem C76_uint (b : Nat) (s : Txt) (n : Nat) :
    parseUInt b s = some n ↔ ∃ d, (s = d ∨ s = '+' :: d) ∧ d ≠ [] ∧ (∀ c ∈ d, c.isDigit) ∧ digitsVal d = n ∧ n < b := by
  have key : ∀ d : Txt, (if d ≠ [] ∧ d.all Char.isDigit ∧ digitsVal d < b then some (digitsVal d) else none) = some n ↔
      d ≠ [] ∧ (∀ c ∈ d, c.isDigit) ∧ digitsVal d = n ∧ n < b := by
    intro d
    split_ifs with h
    · simp only [Option.some.injEq]
      exact ⟨fun e => ⟨h.1, List.all_eq_true.1 h.2.1, e, e ▸ h.2.2⟩, fun e => e.2.2.1⟩
    · simp only [reduceCtorEq, false_iff]
      rintro ⟨h1, h2, h3, h4⟩
      exact h ⟨h1, List.all_eq_true.2 h2, h3 ▸ h4⟩
  rw [parseUInt, key]
  constructor
  · intro h
    refine ⟨unsign s, ?_, h⟩
    rcases s with _ | ⟨c, s⟩
    · exact .inl rfl
    · by_cases hc : c = '+'
      · subst hc; exact .inr rfl
      · exact .inl (by rw [unsign, if_neg hc])
  · rintro ⟨d, rfl | rfl, h1, h2, h3⟩
    · have : unsign s = s := by
        rcases s with _ | ⟨c, s⟩
        · rfl
        · rw [unsign, if_neg]
          rintro rfl
          exact absurd (h2 '+' (by simp)) (by decide)
      rw [this]
      exact ⟨h1, h2, h3⟩
    · exact ⟨h1, h2, h3⟩

/-- **C76.** The mesh is shown or not by `true` and `false`. -/
theorem C76_bool (s : Txt) (b : Bool) : parseBool s = some b ↔ s = (if b then "true".toList else "false".toList) := by
  unfold parseBool
  split_ifs with h1 h2 <;> cases b <;> simp_all

section
variable {K : Type} [Field K] [LinearOrder K] [FloorRing K] [IsStrictOrderedRing K] {α β : Type}

/-- **C76.** A colour map is selected by its name. Without a name none is set, and the drawing uses the hot one. -/
theorem C76_color (o : Option Txt) (c : Option (K → Rgb)) :
    colorOf o = some c ↔ (o = none ∧ c = none) ∨ (o = some "hot".toList ∧ c = some hotMap) ∨ (o = some "rgb".toList ∧ c = some rgbMap) := by
  rcases o with _ | t
  · simp [colorOf, eq_comm]
  · rw [colorOf]
    constructor
    · intro h
      split_ifs at h with h1 h2
      · exact .inr (.inl ⟨congrArg some h1, (Option.some.inj h).symm⟩)
      · exact .inr (.inr ⟨congrArg some h2, (Option.some.inj h).symm⟩)
    · rintro (⟨h, -⟩ | ⟨h1, rfl⟩ | ⟨h1, rfl⟩)
      · cases h
      · rw [if_pos (Option.some.inj h1)]
      · rw [Option.some.inj h1, if_neg (by decide), if_pos rfl]

/-! ## The commands -/

theorem step_ok {ε : Type} {x : Except ε α} {f : α → Except ε β} {y : β} : (x >>= f) = .ok y ↔ ∃ a, x = .ok a ∧ f a = .ok y := by
  rcases x with e | a
  · simp [bind, Except.bind]
  · simp [bind, Except.bind]

theorem orPanic_ok {r : Res α} {x : α} : orPanic r = .ok x ↔ r = .ok x := by
  rcases r with _ | _ <;> simp [orPanic]

theorem orArg_ok {s : String} {r : Option α} {x : α} : orArg s r = .ok x ↔ r = some x := by
  rcases r with _ | _ <;> simp [orArg]

theorem orFile_ok {r : Except FErr α} {x : α} : orFile r = .ok x ↔ r = .ok x := by
  match r with
  | .ok _ | .error (.fault _) | .error .noExt | .error .noOpen | .error .nonUni | .error .badParse | .error (.badType _) => simp [orFile]

/-- The solution procedure with the name `s`. -/
def Solver.procedure (sq : K → K) : Solver → System K → Res (List K)
  | .denseGauss => denseSolve
  | .cholesky => choleskySolve sq
  | .gaussSeidel => seidelSolve sq

/-- A largest member of a list. -/
def Largest (m : K) (l : List K) : Prop := m ∈ l ∧ ∀ x ∈ l, x ≤ m

theorem Solver.run_eq (sq : K → K) (s : Solver) : s.run sq = s.procedure sq := by cases s <;> rfl

theorem largest_of {l : List K} {m : K} (h : unwrap (maxVal l) = .ok m) : Largest m l := by
  by_cases hl : l = []
  · subst hl; cases h
  · obtain ⟨m', h1, h2, h3⟩ := maxVal_spec hl
    rw [h1] at h
    obtain rfl := Except.ok.inj h
    exact ⟨h2, fun x hx => h3 hx⟩

/-- What the values with the name `v` are for a displacement. -/
def Value.Is (sq : K → K) (a : Assemblage K) (disp : List (Point K)) : Value → List K → Prop
  | .displacement, l => l = disp.map (Point.norm sq)
  | .vonMises, l => a.vonMises sq disp = .ok l

/-- The options of the image that the arguments name; without a name the default is used. -/
structure Names (args : Args) (o : VisOptions K) : Prop where
  color : (args "colormap" = none ∧ o.colorMap = none) ∨ (args "colormap" = some "hot".toList ∧ o.colorMap = some hotMap) ∨
    (args "colormap" = some "rgb".toList ∧ o.colorMap = some rgbMap)
  size : ∃ n, o.imSize = some n ∧ parseUInt (2 ^ 32) ((args "imsize").getD "1024".toList) = some n
  shown : (args "showmesh").getD "true".toList = if o.showMesh then "true".toList else "false".toList

theorem visOptions_ok {args : Args} {o : VisOptions K} : visOptions args = .ok o ↔ Names args o := by
  unfold visOptions
  simp only [step_ok, orArg_ok, C76_color, C76_bool]
  constructor
  · rintro ⟨cm, h1, n, h2, b, h3, h⟩
    obtain rfl := Except.ok.inj h
    exact ⟨h1, ⟨n, rfl, h2⟩, h3⟩
  · rintro ⟨h1, ⟨n, h2, h3⟩, h4⟩
    refine ⟨_, h1, n, h3, _, h4, ?_⟩
    rw [← h2]

theorem drawTo_ok {M : Machine K} {path : Txt} {vis : Visualizer K} {o : VisOptions K} {x : Act K} :
    drawTo M path vis o = .ok x ↔ ∃ img, vis.draw M.tr o = .ok img ∧ M.disk.saves path = true ∧ x = .image path img := by
  unfold drawTo
  simp only [step_ok, orPanic_ok]
  constructor
  · rintro ⟨img, h1, h2⟩
    split_ifs at h2 with h
    exact ⟨img, h1, h, (Except.ok.inj h2).symm⟩
  · rintro ⟨img, h1, h2, rfl⟩
    exact ⟨img, h1, by rw [if_pos h2]⟩

theorem linear_ok {M : Machine K} {input : Txt} {args : Args} {acts : List (Act K)} : linear M input args = .ok acts ↔
    ∃ a, readElas M.text M.disk input = .ok a ∧ ∃ s, solverOf (args "solver") = some s ∧
    ∃ disp, a.calcDisplacements M.tr M.sq M.srt (s.run M.sq) = .ok disp ∧ ∃ vm, a.vonMises M.sq disp = .ok vm ∧
    ∃ m, unwrap (maxVal vm) = .ok m ∧ ∃ d, unwrap (maxVal (Assemblage.displacementNorms M.sq disp)) = .ok d ∧
    ∃ scale, scaleOf M args = .ok scale ∧ ∃ vis, a.visualize disp scale = .ok vis ∧ ∃ v, valueOf (args "nodevalue") = some v ∧
    ∃ vals, v.get M.sq a disp = .ok vals ∧ ∃ vis', vis.setVals vals = .ok vis' ∧ ∃ o, visOptions args = .ok o ∧
    ∃ x, drawTo M ((args "out").getD "out.png".toList) vis' o = .ok x ∧ acts = [x, .linear m d] := by
  unfold linear
  simp only [step_ok, orPanic_ok, orArg_ok, orFile_ok, Except.ok.injEq]
  constructor <;> rintro ⟨a, h1, s, h2, disp, h3, vm, h4, m, h5, d, h6, sc, h7, vis, h8, v, h9, vals, h10, vis', h11, o, h12, x, h13, h14⟩ <;>
    exact ⟨a, h1, s, h2, disp, h3, vm, h4, m, h5, d, h6, sc, h7, vis, h8, v, h9, vals, h10, vis', h11, o, h12, x, h13, h14.symm⟩

/-- **C76.** What `linear` does when it succeeds: it solves the assemblage in the file with the solver that is named, prints the largest of the von Mises stresses and
of the displacements, and saves the picture of the displaced assemblage with the named values, colours and size at the named place. -/
theorem C76_linear {M : Machine K} {input : Txt} {args : Args} {acts : List (Act K)} (h : linear M input args = .ok acts) :
    ∃ (a : Assemblage K) (s : Solver) (v : Value) (o : VisOptions K) (disp : List (Point K)) (vm vals : List K) (m d scale : K) (vis vis' : Visualizer K) (img : Image),
      readElas M.text M.disk input = .ok a ∧
      (args "solver" = some s.name ∨ (args "solver" = none ∧ s = .denseGauss)) ∧
      (args "nodevalue" = some v.name ∨ (args "nodevalue" = none ∧ v = .displacement)) ∧
      Names args o ∧ M.text.rd ((args "scale").getD "50.0".toList) = some scale ∧
      a.calcDisplacements M.tr M.sq M.srt (s.procedure M.sq) = .ok disp ∧
      a.vonMises M.sq disp = .ok vm ∧ Largest m vm ∧ Largest d (disp.map (Point.norm M.sq)) ∧ v.Is M.sq a disp vals ∧
      a.visualize disp scale = .ok vis ∧ vis.setVals vals = .ok vis' ∧ vis'.draw M.tr o = .ok img ∧
      M.disk.saves ((args "out").getD "out.png".toList) = true ∧ acts = [.image ((args "out").getD "out.png".toList) img, .linear m d] := by
  obtain ⟨a, h1, s, h2, disp, h3, vm, h4, m, h5, d, h6, sc, h7, vis, h8, v, h9, vals, h10, vis', h11, o, h12, x, h13, rfl⟩ := linear_ok.1 h
  obtain ⟨img, h14, h15, rfl⟩ := drawTo_ok.1 h13
  refine ⟨a, s, v, o, disp, vm, vals, m, d, sc, vis, vis', img, h1, (C76_solver _ _).1 h2, (C76_value _ _).1 h9, visOptions_ok.1 h12, orArg_ok.1 h7,
    by rw [← Solver.run_eq]; exact h3, h4, largest_of h5, largest_of h6, ?_, h8, h11, h14, h15, rfl⟩
  cases v
  · exact (Except.ok.inj h10).symm
  · exact h10

/-- Values that the options of `linear` do not take. -/
def Unusable (M : Machine K) (opt : String) (bad : Txt) : Prop :=
  (opt = "solver" ∧ ∀ s : Solver, bad ≠ s.name) ∨ (opt = "nodevalue" ∧ ∀ v : Value, bad ≠ v.name) ∨
  (opt = "colormap" ∧ bad ≠ "hot".toList ∧ bad ≠ "rgb".toList) ∨ (opt = "imsize" ∧ ∀ n, parseUInt (2 ^ 32) bad ≠ some n) ∨
  (opt = "showmesh" ∧ bad ≠ "true".toList ∧ bad ≠ "false".toList) ∨ (opt = "scale" ∧ M.text.rd bad = none)

theorem orArg_none {s : String} {r : Option α} (h : ∀ x, r ≠ some x) : orArg s r = .error (.arg s) := by
  rcases r with _ | x
  · rfl
  · exact absurd rfl (h x)

theorem bad_solver {bad : Txt} (h : ∀ s : Solver, bad ≠ s.name) : orArg "solver" (solverOf (some bad)) = .error (.arg "solver") :=
  orArg_none fun s hs => by
    rcases (C76_solver _ _).1 hs with h' | ⟨h', -⟩
    · exact h s (Option.some.inj h')
    · cases h'

theorem bad_value {bad : Txt} (h : ∀ s : Value, bad ≠ s.name) : orArg "nodevalue" (valueOf (some bad)) = .error (.arg "nodevalue") :=
  orArg_none fun s hs => by
    rcases (C76_value _ _).1 hs with h' | ⟨h', -⟩
    · exact h s (Option.some.inj h')
    · cases h'

theorem bad_mesher {bad : Txt} (h : ∀ s : Mesher, bad ≠ s.name) : orArg "mesher" (mesherOf (some bad)) = .error (.arg "mesher") :=
  orArg_none fun s hs => by
    rcases (C76_mesher _ _).1 hs with h' | ⟨h', -⟩
    · exact h s (Option.some.inj h')
    · cases h'

theorem bad_color {bad : Txt} (h : bad ≠ "hot".toList ∧ bad ≠ "rgb".toList) :
    orArg "colormap" (colorOf (K := K) (some bad)) = .error (.arg "colormap") :=
  orArg_none fun s hs => by
    rcases (C76_color _ _).1 hs with ⟨h', -⟩ | ⟨h', -⟩ | ⟨h', -⟩
    · cases h'
    · exact h.1 (Option.some.inj h')
    · exact h.2 (Option.some.inj h')

theorem bad_bool {bad : Txt} (h : bad ≠ "true".toList ∧ bad ≠ "false".toList) : orArg "showmesh" (parseBool bad) = .error (.arg "showmesh") :=
  orArg_none fun b hb => by
    have := (C76_bool _ _).1 hb
    cases b
    · exact h.2 this
    · exact h.1 this

theorem bad_options {args : Args} {o : VisOptions K} (h : visOptions args = .ok o) {opt : String} {bad : Txt}
    (hb : (opt = "colormap" ∧ bad ≠ "hot".toList ∧ bad ≠ "rgb".toList) ∨ (opt = "imsize" ∧ ∀ n, parseUInt (2 ^ 32) bad ≠ some n) ∨
      (opt = "showmesh" ∧ bad ≠ "true".toList ∧ bad ≠ "false".toList)) :
    visOptions (K := K) (Function.update args opt (some bad)) = .error (.arg opt) := by
  unfold visOptions at h
  simp only [step_ok] at h
  obtain ⟨cm, h1, n, h2, b, h3, -⟩ := h
  unfold visOptions
  rcases hb with ⟨rfl, hb⟩ | ⟨rfl, hb⟩ | ⟨rfl, hb⟩
  · rw [Function.update_self, bad_color hb]; rfl
  · rw [Function.update_of_ne (by decide), h1, Function.update_self, Option.getD_some, orArg_none hb]; rfl
  · rw [Function.update_of_ne (by decide), h1, Function.update_of_ne (by decide), h2, Function.update_self, Option.getD_some, bad_bool hb]; rfl

/-- **C76.** A wrong value of any option of `linear` is reported as an error of that option. -/
theorem C76_linear_bad {M : Machine K} {input : Txt} {args : Args} {acts : List (Act K)} (h : linear M input args = .ok acts) {opt : String} {bad : Txt}
    (hb : Unusable M opt bad) : linear M input (Function.update args opt (some bad)) = .error (.arg opt) := by
  obtain ⟨a, h1, s, h2, disp, h3, vm, h4, m, h5, d, h6, sc, h7, vis, h8, v, h9, vals, h10, vis', h11, o, h12, x, h13, rfl⟩ := linear_ok.1 h
  have e1 := orFile_ok.2 h1
  have e2 := orArg_ok (s := "solver").2 h2
  have e3 := orPanic_ok.2 h3
  have e4 := orPanic_ok.2 h4
  have e5 := orPanic_ok.2 h5
  have e6 := orPanic_ok.2 h6
  have e8 := orPanic_ok.2 h8
  have e9 := orArg_ok (s := "nodevalue").2 h9
  have e10 := orPanic_ok.2 h10
  have e11 := orPanic_ok.2 h11
  have ob : ∀ {γ δ ε : Type} (x : γ) (f : γ → Except ε δ), (Except.ok x >>= f) = f x := fun _ _ => rfl
  rw [scaleOf] at h7
  rw [linear, e1, ob]
  rcases hb with ⟨rfl, hb⟩ | ⟨rfl, hb⟩ | hb
  · rw [Function.update_self, bad_solver hb]; rfl
  · rw [Function.update_of_ne (by decide), e2, ob, e3, ob, e4, ob, e5, ob, e6, ob, scaleOf, Function.update_of_ne (by decide), h7, ob, e8, ob, Function.update_self,
      bad_value hb]
    rfl
  · by_cases ho : opt = "scale"
    · subst ho
      have hb' : M.text.rd bad = none := by
        rcases hb with ⟨h, -⟩ | ⟨h, -⟩ | ⟨h, -⟩ | ⟨-, h⟩
        · exact absurd h (by decide)
        · exact absurd h (by decide)
        · exact absurd h (by decide)
        · exact h
      rw [Function.update_of_ne (by decide), e2, ob, e3, ob, e4, ob, e5, ob, e6, ob, scaleOf, Function.update_self, Option.getD_some, hb']
      rfl
    · have hb' : (opt = "colormap" ∧ bad ≠ "hot".toList ∧ bad ≠ "rgb".toList) ∨ (opt = "imsize" ∧ ∀ n, parseUInt (2 ^ 32) bad ≠ some n) ∨
          (opt = "showmesh" ∧ bad ≠ "true".toList ∧ bad ≠ "false".toList) := by
        rcases hb with h | h | h | ⟨h, -⟩
        · exact .inl h
        · exact .inr (.inl h)
        · exact .inr (.inr h)
        · exact absurd h ho
      have hn : opt ≠ "solver" ∧ opt ≠ "nodevalue" := by rcases hb' with ⟨rfl, -⟩ | ⟨rfl, -⟩ | ⟨rfl, -⟩ <;> decide
      rw [Function.update_of_ne hn.1.symm, e2, ob, e3, ob, e4, ob, e5, ob, e6, ob, scaleOf, Function.update_of_ne (Ne.symm ho), h7, ob, e8, ob,
        Function.update_of_ne hn.2.symm, e9, ob, e10, ob, e11, ob, bad_options h12 hb']
      rfl

theorem drawTo_hot (M : Machine K) (path : Txt) (vis : Visualizer K) (n : Option Nat) (b : Bool) :
    drawTo M path vis ⟨none, n, b⟩ = drawTo M path vis ⟨some hotMap, n, b⟩ := rfl

theorem linear_congr {M : Machine K} {input : Txt} {args args' : Args} (h1 : solverOf (args "solver") = solverOf (args' "solver"))
    (h2 : (args "scale").getD "50.0".toList = (args' "scale").getD "50.0".toList) (h3 : valueOf (args "nodevalue") = valueOf (args' "nodevalue"))
    (h4 : ∀ vis, (visOptions args >>= drawTo M ((args "out").getD "out.png".toList) vis) =
      (visOptions args' >>= drawTo M ((args' "out").getD "out.png".toList) vis)) : linear M input args = linear M input args' := by
  have h5 : ∀ vis (f : Act K → Except CErr (List (Act K))), (visOptions args >>= fun o => drawTo M ((args "out").getD "out.png".toList) vis o >>= f) =
      (visOptions args' >>= fun o => drawTo M ((args' "out").getD "out.png".toList) vis o >>= f) := by
    intro vis f
    have ha : ∀ (x : Except CErr (VisOptions K)) p, (x >>= fun o => drawTo M p vis o >>= f) = ((x >>= drawTo M p vis) >>= f) := by
      intro x p; rcases x with _ | _ <;> rfl
    rw [ha, ha, h4]
  unfold linear scaleOf
  simp only [h1, h2, h3, h5]

/-- The options with their documented defaults. -/
def defaults : List (String × Txt) := [("solver", "densegauss".toList), ("scale", "50.0".toList), ("nodevalue", "displacement".toList), ("out", "out.png".toList),
  ("colormap", "hot".toList), ("imsize", "1024".toList), ("showmesh", "true".toList)]

theorem visOptions_hot (M : Machine K) (args : Args) (path : Txt) (vis : Visualizer K) :
    (visOptions (Function.update args "colormap" none) >>= drawTo M path vis) =
      (visOptions (Function.update args "colormap" (some "hot".toList)) >>= drawTo M path vis) := by
  unfold visOptions
  rw [Function.update_self, Function.update_self, Function.update_of_ne (by decide), Function.update_of_ne (by decide), Function.update_of_ne (by decide),
    Function.update_of_ne (by decide)]
  show ((orArg "imsize" _ >>= fun _ => _) >>= drawTo M path vis) = ((orArg "imsize" _ >>= fun _ => _) >>= drawTo M path vis)
  rcases parseUInt (2 ^ 32) ((args "imsize").getD "1024".toList) with _ | n
  · rfl
  · rcases parseBool ((args "showmesh").getD "true".toList) with _ | b
    · rfl
    · rfl

/-- **C76.** An option of `linear` that is not given has the effect of its documented default. -/
theorem C76_linear_default (M : Machine K) (input : Txt) (args : Args) {opt : String} {d : Txt} (h : (opt, d) ∈ defaults) :
    linear M input (Function.update args opt none) = linear M input (Function.update args opt (some d)) := by
  simp only [defaults, List.mem_cons, Prod.mk.injEq, List.not_mem_nil, or_false] at h
  have un : ∀ {a b : String} {x : Option Txt}, b ≠ a → Function.update args a x b = args b := fun h => Function.update_of_ne h _ _
  rcases h with ⟨rfl, rfl⟩ | ⟨rfl, rfl⟩ | ⟨rfl, rfl⟩ | ⟨rfl, rfl⟩ | ⟨rfl, rfl⟩ | ⟨rfl, rfl⟩ | ⟨rfl, rfl⟩
  · refine linear_congr ?_ ?_ ?_ fun vis => ?_
    · rw [Function.update_self, Function.update_self]; decide
    · rw [un (by decide), un (by decide)]
    · rw [un (by decide), un (by decide)]
    · unfold visOptions
      rw [un (by decide), un (by decide), un (by decide), un (by decide), un (by decide), un (by decide), un (by decide), un (by decide)]
  · refine linear_congr ?_ ?_ ?_ fun vis => ?_
    · rw [un (by decide), un (by decide)]
    · rw [Function.update_self, Function.update_self]; rfl
    · rw [un (by decide), un (by decide)]
    · unfold visOptions
      rw [un (by decide), un (by decide), un (by decide), un (by decide), un (by decide), un (by decide), un (by decide), un (by decide)]
  · refine linear_congr ?_ ?_ ?_ fun vis => ?_
    · rw [un (by decide), un (by decide)]
    · rw [un (by decide), un (by decide)]
    · rw [Function.update_self, Function.update_self]; decide
    · unfold visOptions
      rw [un (by decide), un (by decide), un (by decide), un (by decide), un (by decide), un (by decide), un (by decide), un (by decide)]
  · refine linear_congr ?_ ?_ ?_ fun vis => ?_
    · rw [un (by decide), un (by decide)]
    · rw [un (by decide), un (by decide)]
    · rw [un (by decide), un (by decide)]
    · unfold visOptions
      simp only [Function.update_self, un (show "colormap" ≠ "out" by decide), un (show "imsize" ≠ "out" by decide), un (show "showmesh" ≠ "out" by decide)]
      rfl
  · refine linear_congr ?_ ?_ ?_ fun vis => ?_
    · rw [un (by decide), un (by decide)]
    · rw [un (by decide), un (by decide)]
    · rw [un (by decide), un (by decide)]
    · rw [visOptions_hot, un (by decide), un (by decide)]
  · refine linear_congr ?_ ?_ ?_ fun vis => ?_
    · rw [un (by decide), un (by decide)]
    · rw [un (by decide), un (by decide)]
    · rw [un (by decide), un (by decide)]
    · unfold visOptions
      simp only [Function.update_self, un (show "colormap" ≠ "imsize" by decide), un (show "showmesh" ≠ "imsize" by decide), un (show "out" ≠ "imsize" by decide)]
      rfl
  · refine linear_congr ?_ ?_ ?_ fun vis => ?_
    · rw [un (by decide), un (by decide)]
    · rw [un (by decide), un (by decide)]
    · rw [un (by decide), un (by decide)]
    · unfold visOptions
      simp only [Function.update_self, un (show "colormap" ≠ "showmesh" by decide), un (show "imsize" ≠ "showmesh" by decide), un (show "out" ≠ "showmesh" by decide)]
      rfl

/-! ### `mesh` -/

theorem andThen_none {r : Except CErr α} {f : α → Out K} {acts : List (Act K)} : andThen r f = (acts, none) ↔ ∃ x, r = .ok x ∧ f x = (acts, none) := by
  rcases r with e | x
  · simp [andThen]
  · simp [andThen]

theorem doing_none {acts acts' : List (Act K)} {o : Out K} : doing acts o = (acts', none) ↔ ∃ l, o = (l, none) ∧ acts' = acts ++ l := by
  rcases o with ⟨l, e⟩
  simp only [doing, Prod.mk.injEq]
  constructor
  · rintro ⟨h1, rfl⟩; exact ⟨l, ⟨rfl, rfl⟩, h1.symm⟩
  · rintro ⟨l', ⟨rfl, rfl⟩, h⟩; exact ⟨h.symm, rfl⟩

/-- The mesh procedure with the name `m`. -/
def Mesher.procedure (M : Machine K) : Mesher → Boundary K → K → Res (Plane K)
  | .chew, b, h => (Plane.new b).chewMesh M.geo M.segs M.pick M.tris M.fuel h
  | .ruppert, b, h => (Plane.new b).ruppertMesh M.geo M.pick M.tris M.fuel h

theorem mesh_ok {M : Machine K} {input size : Txt} {args : Args} {acts : List (Act K)} : mesh M input size args = (acts, none) ↔
    ∃ T, meshed M input size args = .ok T ∧ ∃ img, meshImage M T args = .ok img ∧ ∃ txt, meshText M T args = .ok txt ∧ acts = [img, txt] := by
  unfold mesh
  simp only [andThen_none, doing_none, Prod.mk.injEq, and_true]
  constructor
  · rintro ⟨T, h1, img, h2, l, ⟨txt, h3, l', rfl, rfl⟩, rfl⟩
    exact ⟨T, h1, img, h2, txt, h3, rfl⟩
  · rintro ⟨T, h1, img, h2, txt, h3, rfl⟩
    exact ⟨T, h1, img, h2, [txt], ⟨txt, h3, [], rfl, rfl⟩, rfl⟩

theorem meshed_ok {M : Machine K} {input size : Txt} {args : Args} {T : Plane K} : meshed M input size args = .ok T ↔
    ∃ b, Files.readBound M.geo M.text M.pos M.disk input = .ok b ∧ ∃ h, M.text.rd size = some h ∧ ∃ m, mesherOf (args "mesher") = some m ∧
      m.run M (Plane.new b) h = .ok T := by
  unfold meshed
  simp only [step_ok, orPanic_ok, orArg_ok, orFile_ok]

theorem orRun_ok {r : Res α} {x : α} : orRun r = .ok x ↔ r = .ok x := by
  match r with
  | .ok _ | .error .err | .error .panic | .error .div0 | .error .neg | .error .fuel => simp [orRun]

/-- **C76.** What `mesh` does when it succeeds: it meshes the boundary in the file with the mesh algorithm that is named, saves the picture of the mesh with the
named size at the named place, and writes the mesh file at the named place. -/
theorem C76_mesh {M : Machine K} {input size : Txt} {args : Args} {acts : List (Act K)} (h : mesh M input size args = (acts, none)) :
    ∃ (b : Boundary K) (m : Mesher) (h : K) (T : Plane K) (n : Nat) (vis : Visualizer K) (img : Image) (a : Assemblage K) (text : Txt),
      Files.readBound M.geo M.text M.pos M.disk input = .ok b ∧ (args "mesher" = some m.name ∨ (args "mesher" = none ∧ m = .chew)) ∧
      M.text.rd size = some h ∧ m.procedure M b h = .ok T ∧ parseUInt (2 ^ 32) ((args "imsize").getD "1024".toList) = some n ∧
      T.visualize M.keys M.drain = .ok vis ∧ vis.draw M.tr ⟨none, some n, true⟩ = .ok img ∧ T.assemble M.orders = .ok a ∧ MeshFile.write M.text a = .ok text ∧
      M.disk.saves ((args "imageout").getD "out.png".toList) = true ∧ M.disk.writes ((args "meshout").getD "out.bmsh".toList) = true ∧
      acts = [.image ((args "imageout").getD "out.png".toList) img, .mesh ((args "meshout").getD "out.bmsh".toList) text] := by
  obtain ⟨T, h1, i, h2, t, h3, rfl⟩ := mesh_ok.1 h
  obtain ⟨b, h4, hh, h5, m, h6, h7⟩ := meshed_ok.1 h1
  unfold meshImage at h2
  simp only [step_ok, orPanic_ok, orArg_ok, drawTo_ok] at h2
  obtain ⟨vis, h8, n, h9, img, h10, h11, rfl⟩ := h2
  unfold meshText at h3
  simp only [step_ok, orPanic_ok, orRun_ok] at h3
  obtain ⟨a, h12, text, h13, h14⟩ := h3
  obtain ⟨h15, h16⟩ := (C74_save ..).1 h13
  obtain rfl := Except.ok.inj h14
  exact ⟨b, m, hh, T, n, vis, img, a, text, h4, (C76_mesher _ _).1 h6, h5, by cases m <;> exact h7, h9, h8, h10, h12, h15, h11, h16, rfl⟩

/-- **C76.** A wrong name of a mesh algorithm or a wrong size is reported as an error of that option, and nothing is written. -/
theorem C76_mesh_bad {M : Machine K} {input size : Txt} {args : Args} {acts : List (Act K)} (h : mesh M input size args = (acts, none)) {bad : Txt} :
    ((∀ m : Mesher, bad ≠ m.name) → mesh M input size (Function.update args "mesher" (some bad)) = ([], some (.arg "mesher"))) ∧
    ((∀ n, parseUInt (2 ^ 32) bad ≠ some n) → mesh M input size (Function.update args "imsize" (some bad)) = ([], some (.arg "imsize"))) ∧
    (M.text.rd bad = none → mesh M input bad args = ([], some (.arg "elementsize"))) := by
  obtain ⟨T, h1, i, h2, t, h3, rfl⟩ := mesh_ok.1 h
  obtain ⟨b, h4, hh, h5, m, h6, h7⟩ := meshed_ok.1 h1
  have ob : ∀ {γ δ ε : Type} (x : γ) (f : γ → Except ε δ), (Except.ok x >>= f) = f x := fun _ _ => rfl
  refine ⟨fun hb => ?_, fun hb => ?_, fun hb => ?_⟩
  · rw [mesh, meshed, orFile_ok.2 h4, ob, orArg_ok.2 h5, ob, Function.update_self, bad_mesher hb]
    rfl
  · unfold meshImage at h2
    simp only [step_ok, orPanic_ok] at h2
    obtain ⟨vis, h8, -⟩ := h2
    rw [mesh, meshed, orFile_ok.2 h4, ob, orArg_ok.2 h5, ob, Function.update_of_ne (by decide), orArg_ok.2 h6, ob, orPanic_ok.2 h7]
    show andThen (meshImage M T _) _ = _
    rw [meshImage, orPanic_ok.2 h8, ob, Function.update_self, Option.getD_some, orArg_none hb]
    rfl
  · rw [mesh, meshed, orFile_ok.2 h4, ob, hb]
    rfl

/-- **C76.** An option of `mesh` that is not given has the effect of its documented default. -/
theorem C76_mesh_default (M : Machine K) (input size : Txt) (args : Args) {opt : String} {d : Txt}
    (h : (opt, d) ∈ [("mesher", "chew".toList), ("imageout", "out.png".toList), ("meshout", "out.bmsh".toList), ("imsize", "1024".toList)]) :
    mesh M input size (Function.update args opt none) = mesh M input size (Function.update args opt (some d)) := by
  simp only [List.mem_cons, Prod.mk.injEq, List.not_mem_nil, or_false] at h
  have un : ∀ {a b : String} {x : Option Txt}, b ≠ a → Function.update args a x b = args b := fun h => Function.update_of_ne h _ _
  unfold mesh meshed meshImage meshText
  rcases h with ⟨rfl, rfl⟩ | ⟨rfl, rfl⟩ | ⟨rfl, rfl⟩ | ⟨rfl, rfl⟩
  · simp only [Function.update_self, un (show "imageout" ≠ "mesher" by decide), un (show "meshout" ≠ "mesher" by decide), un (show "imsize" ≠ "mesher" by decide)]
    rfl
  · simp only [Function.update_self, un (show "mesher" ≠ "imageout" by decide), un (show "meshout" ≠ "imageout" by decide), un (show "imsize" ≠ "imageout" by decide)]
    rfl
  · simp only [Function.update_self, un (show "mesher" ≠ "meshout" by decide), un (show "imageout" ≠ "meshout" by decide), un (show "imsize" ≠ "meshout" by decide)]
    rfl
  · simp only [Function.update_self, un (show "mesher" ≠ "imsize" by decide), un (show "imageout" ≠ "imsize" by decide), un (show "meshout" ≠ "imsize" by decide)]
    rfl

/-- **C76.** A boundary without material is only found out after the picture is saved; no mesh file is written then. -/
theorem C76_mesh_no_material {M : Machine K} {input size : Txt} {args : Args} {T : Plane K} {img : Act K} (h1 : meshed M input size args = .ok T)
    (h2 : meshImage M T args = .ok img) (h3 : T.bound.material = none) : mesh M input size args = ([img], some .run) := by
  have e : T.assemble M.orders = .error .err := by rw [Plane.assemble, h3]
  rw [mesh, h1]
  show andThen (meshImage M T args) _ = _
  rw [h2]
  show doing [img] (andThen (meshText M T args) _) = _
  rw [meshText, e]
  rfl

/-! ### `modal` -/

/-- What is done for the modes with pictures `ps`, the first of them with number `i`. -/
def modeList (i : Nat) (ps : List ((List (Point K) × K) × Image)) : List (Act K) :=
  (ps.zipIdx i).flatMap fun e => [.image ("out_".toList ++ pad2 e.2 ++ ".png".toList) e.1.2, .mode e.2 e.1.1.2]

theorem modesFrom_ok {M : Machine K} {a : Assemblage K} {scale : K} {args : Args} : ∀ {ms : List (List (Point K) × K)} {i : Nat} {acts : List (Act K)},
    modesFrom M a scale args i ms = (acts, none) → ∃ imgs : List Image, imgs.length = ms.length ∧
      (∀ e ∈ ms.zip imgs, ∃ o vis vis', Names args o ∧ a.visualize e.1.1 scale = .ok vis ∧
        vis.setVals (e.1.1.map (Point.norm M.sq)) = .ok vis' ∧ vis'.draw M.tr o = .ok e.2) ∧ acts = modeList i (ms.zip imgs) := by
  intro ms
  induction ms with
  | nil =>
    intro i acts h
    cases h
    exact ⟨[], rfl, by simp, rfl⟩
  | cons m ms ih =>
    intro i acts h
    rw [modesFrom, andThen_none] at h
    obtain ⟨x, h1, h2⟩ := h
    obtain ⟨l, h3, rfl⟩ := doing_none.1 h2
    obtain ⟨imgs, h4, h5, rfl⟩ := ih h3
    unfold modeActs at h1
    simp only [step_ok, orPanic_ok, visOptions_ok, drawTo_ok] at h1
    obtain ⟨vis, h6, vis', h7, o, h8, y, ⟨img, h9, -, rfl⟩, h10⟩ := h1
    obtain rfl := Except.ok.inj h10
    refine ⟨img :: imgs, by simp [h4], ?_, by simp [modeList]⟩
    intro e he
    rw [List.zip_cons_cons, List.mem_cons] at he
    rcases he with rfl | he
    · exact ⟨o, vis, vis', h8, h6, h7, h9⟩
    · exact h5 e he

theorem modes_ok {M : Machine K} {input num : Txt} {args : Args} {r : Assemblage K × List (List (Point K) × K) × K} : modes M input num args = .ok r ↔
    readElas M.text M.disk input = .ok r.1 ∧ ∃ n, parseUInt (2 ^ 64) num = some n ∧ r.1.calcModes M.tr M.sq M.srt M.rng M.fuel n = .ok r.2.1 ∧
      M.text.rd ((args "scale").getD "50.0".toList) = some r.2.2 := by
  unfold modes scaleOf
  simp only [step_ok, orPanic_ok, orArg_ok, orFile_ok]
  constructor
  · rintro ⟨a, h1, n, h2, ms, h3, sc, h4, h5⟩
    obtain rfl := Except.ok.inj h5
    exact ⟨h1, n, h2, h3, h4⟩
  · rintro ⟨h1, n, h2, h3, h4⟩
    exact ⟨_, h1, n, h2, _, h3, _, h4, rfl⟩

/-- **C76.** What `modal` does when it succeeds: it finds the named number of modes of the assemblage in the file, and for each of them saves a picture under its
own number and prints its frequency. -/
theorem C76_modal {M : Machine K} {input num : Txt} {args : Args} {acts : List (Act K)} (h : modal M input num args = (acts, none)) :
    ∃ (a : Assemblage K) (n : Nat) (scale : K) (ms : List (List (Point K) × K)) (imgs : List Image),
      readElas M.text M.disk input = .ok a ∧ parseUInt (2 ^ 64) num = some n ∧ M.text.rd ((args "scale").getD "50.0".toList) = some scale ∧
      a.calcModes M.tr M.sq M.srt M.rng M.fuel n = .ok ms ∧ imgs.length = ms.length ∧
      (∀ e ∈ ms.zip imgs, ∃ o vis vis', Names args o ∧ a.visualize e.1.1 scale = .ok vis ∧
        vis.setVals (e.1.1.map (Point.norm M.sq)) = .ok vis' ∧ vis'.draw M.tr o = .ok e.2) ∧
      acts = ((ms.zip imgs).zipIdx).flatMap fun e => [.image ("out_".toList ++ pad2 e.2 ++ ".png".toList) e.1.2, .mode e.2 e.1.1.2] := by
  obtain ⟨r, h1, h2⟩ := andThen_none.1 h
  obtain ⟨h3, n, h4, h5, h6⟩ := modes_ok.1 h1
  obtain ⟨imgs, h7, h8, h9⟩ := modesFrom_ok h2
  exact ⟨r.1, n, r.2.2, r.2.1, imgs, h3, h4, h6, h5, h7, h8, h9⟩

/-- **C76.** The numbers in the names of pictures: different modes have different names, and up to mode 99 the names are equally long. -/
theorem C76_names : (∀ i j : Nat, "out_".toList ++ pad2 i ++ ".png".toList = "out_".toList ++ pad2 j ++ ".png".toList → i = j) ∧
    ∀ i < 100, (pad2 i).length = 2 ∧ ∀ c ∈ pad2 i, c.isDigit = true := by
  constructor
  · intro i j h
    have h1 : pad2 i = pad2 j := List.append_cancel_left (List.append_cancel_right h)
    have val : ∀ n, Nat.ofDigits 10 ((pad2 n).reverse.map fun c => c.toNat - '0'.toNat) = n := by
      intro n
      rw [pad2]
      split_ifs with h
      · rw [List.reverse_cons, List.map_append, Nat.ofDigits_append, (natText_isNat n).2.2]
        simp
      · exact (natText_isNat n).2.2
    rw [← val i, h1, val j]
  · decide +kernel

example : pad2 9 = "09".toList ∧ pad2 10 = "10".toList ∧ pad2 123 = "123".toList := by decide +kernel

/-- **C76.** If there is a mode, a wrong value of an option of `modal` is reported as an error of that option, and nothing is written. -/
theorem C76_modal_bad {M : Machine K} {input num : Txt} {args : Args} {acts : List (Act K)} (h : modal M input num args = (acts, none)) (hne : acts ≠ [])
    {opt : String} {bad : Txt} (hb : Unusable M opt bad) (h1 : opt ≠ "solver") (h2 : opt ≠ "nodevalue") :
    modal M input num (Function.update args opt (some bad)) = ([], some (.arg opt)) := by
  obtain ⟨r, h3, h4⟩ := andThen_none.1 h
  obtain ⟨h5, n, h6, h7, h8⟩ := modes_ok.1 h3
  have ob : ∀ {γ δ ε : Type} (x : γ) (f : γ → Except ε δ), (Except.ok x >>= f) = f x := fun _ _ => rfl
  by_cases ho : opt = "scale"
  · subst ho
    have hb' : M.text.rd bad = none := by
      rcases hb with ⟨h, -⟩ | ⟨h, -⟩ | ⟨h, -⟩ | ⟨h, -⟩ | ⟨h, -⟩ | ⟨-, h⟩
      · exact absurd h h1
      · exact absurd h h2
      · exact absurd h (by decide)
      · exact absurd h (by decide)
      · exact absurd h (by decide)
      · exact h
    rw [modal, modes, orFile_ok.2 h5, ob, orArg_ok.2 h6, ob, orPanic_ok.2 h7, ob, scaleOf, Function.update_self, Option.getD_some, hb']
    rfl
  · have hb' : (opt = "colormap" ∧ bad ≠ "hot".toList ∧ bad ≠ "rgb".toList) ∨ (opt = "imsize" ∧ ∀ n, parseUInt (2 ^ 32) bad ≠ some n) ∨
        (opt = "showmesh" ∧ bad ≠ "true".toList ∧ bad ≠ "false".toList) := by
      rcases hb with ⟨h, -⟩ | ⟨h, -⟩ | h | h | h | ⟨h, -⟩
      · exact absurd h h1
      · exact absurd h h2
      · exact .inl h
      · exact .inr (.inl h)
      · exact .inr (.inr h)
      · exact absurd h ho
    have hm : modes M input num (Function.update args opt (some bad)) = .ok r :=
      modes_ok.2 ⟨h5, n, h6, h7, by rw [Function.update_of_ne (Ne.symm ho)]; exact h8⟩
    rw [modal, hm]
    show modesFrom M r.1 r.2.2 _ 0 r.2.1 = _
    rcases hms : r.2.1 with _ | ⟨m, ms⟩
    · rw [hms] at h4
      cases h4
      exact absurd rfl hne
    · rw [hms, modesFrom, andThen_none] at h4
      obtain ⟨x, h9, -⟩ := h4
      unfold modeActs at h9
      simp only [step_ok, orPanic_ok] at h9
      obtain ⟨vis, h10, vis', h11, o, h12, -⟩ := h9
      rw [modesFrom, modeActs, orPanic_ok.2 h10, ob, orPanic_ok.2 h11, ob, bad_options h12 hb']
      rfl

/-- **C76.** Without modes, as for the number 0, the options of the picture are not looked at: any value of them is accepted. -/
theorem C76_modal_unchecked {M : Machine K} {input num : Txt} {args : Args} (h : modal M input num args = ([], none)) {opt : String} (ho : opt ≠ "scale") (x : Option Txt) :
    modal M input num (Function.update args opt x) = ([], none) := by
  obtain ⟨r, h3, h4⟩ := andThen_none.1 h
  obtain ⟨h5, n, h6, h7, h8⟩ := modes_ok.1 h3
  have hms : r.2.1 = [] := by
    rcases hms : r.2.1 with _ | ⟨m, ms⟩
    · rfl
    · rw [hms, modesFrom, andThen_none] at h4
      obtain ⟨y, h9, h10⟩ := h4
      obtain ⟨l, -, h11⟩ := doing_none.1 h10
      unfold modeActs at h9
      simp only [step_ok] at h9
      obtain ⟨_, -, _, -, _, -, _, -, h12⟩ := h9
      cases h12
      cases h11
  have hm : modes M input num (Function.update args opt x) = .ok r :=
    modes_ok.2 ⟨h5, n, h6, h7, by rw [Function.update_of_ne (Ne.symm ho)]; exact h8⟩
  rw [modal, hm]
  show modesFrom M r.1 r.2.2 _ 0 r.2.1 = _
  rw [hms]
  rfl

end
/-! ## Examples -/

section example76

/-- A triangle on two supports, pulled at its third node. -/
def triFile : Txt := ("$Header\nversion 1\nmaterial TEST\ncondition planestress 1\n$EndHeader\n$Nodes\ncount 3\n0 0/0\n1 2/0\n2 0/2\n$EndNodes\n" ++
  "$Elements\ncount 1\n0 0/1/2\n$EndElements\n$Constraints\ncount 2\n0 xy\n1 y\n$EndConstraints\n$Forces\ncount 1\n2 0/3\n$EndForces\n$DistForces\ncount 0\n$EndDistForces\n").toList

/-- A rectangle with a support and a load. -/
def boxFile : Txt := ("polygon\n0 0 a\n12 0 b\n12 4 c\n0 4 d\nend\nmaterial TEST\ncondition planestress 1\ndistributed_constraint c d y\ndistributed_force a b 0 -5").toList

/-- Something to run the commands with: two files, and plain stand-ins for the outside. -/
def office : Machine ℚ where
  text := MeshFile.exactText
  disk := ⟨fun p => if p = "t.bmsh".toList then some (some "bmsh".toList) else if p = "b.bbnd".toList then some (some "bbnd".toList) else none,
    fun p => if p = "t.bmsh".toList then some triFile else some boxFile, fun _ => true, fun _ => true⟩
  tr := ⟨fun _ => 1, fun _ => 0⟩
  sq x := x
  srt := id
  rng _ := 1
  fuel := 80
  geo := fineGeo
  pos := []
  segs := List.reverse
  pick _ _ := 0
  tris := List.reverse
  orders := backwards
  keys := id
  drain := List.reverse

/-- A small picture without the mesh. -/
def plainArgs : Args := fun s => if s = "imsize" then some "20".toList else if s = "showmesh" then some "false".toList else none

/-- An `Out` without an error and with some number of actions. -/
theorem out_ok {o : Out ℚ} {n : Nat} (h : o.2 = none ∧ o.1.length = n) : ∃ acts, o = (acts, none) ∧ acts.length = n :=
  ⟨o.1, by rw [← h.1], h.2⟩

/-- C76_linear, C76_linear_bad: the triangle is solved with the default solver. The largest stress is 9. -/
theorem office_linear : ∃ img, linear office "t.bmsh".toList plainArgs = .ok [.image "out.png".toList img, .linear 9 36] := by
  have h : (match linear office "t.bmsh".toList plainArgs with
    | .ok [.image p _, .linear m d] => decide (p = "out.png".toList ∧ m = 9 ∧ d = 36)
    | _ => false) = true := by decide +kernel
  split at h
  · rename_i p img m d heq
    obtain ⟨rfl, rfl, rfl⟩ := of_decide_eq_true h
    exact ⟨img, heq⟩
  · cases h

example : linear office "t.bmsh".toList (Function.update plainArgs "solver" (some "lu".toList)) = .error (.arg "solver") ∧
    linear office "t.bmsh".toList (Function.update plainArgs "nodevalue" (some "stress".toList)) = .error (.arg "nodevalue") ∧
    linear office "t.bmsh".toList (Function.update plainArgs "colormap" (some "HOT".toList)) = .error (.arg "colormap") ∧
    linear office "t.bmsh".toList (Function.update plainArgs "imsize" (some "-5".toList)) = .error (.arg "imsize") ∧
    linear office "t.bmsh".toList (Function.update plainArgs "showmesh" (some "no".toList)) = .error (.arg "showmesh") ∧
    linear office "t.bmsh".toList (Function.update plainArgs "scale" (some "big".toList)) = .error (.arg "scale") := by
  obtain ⟨img, h⟩ := office_linear
  refine ⟨C76_linear_bad h (.inl ⟨rfl, fun s => ?_⟩), C76_linear_bad h (.inr (.inl ⟨rfl, fun s => ?_⟩)), C76_linear_bad h (.inr (.inr (.inl ⟨rfl, by decide, by decide⟩))),
    C76_linear_bad h (.inr (.inr (.inr (.inl ⟨rfl, fun n => ?_⟩)))), C76_linear_bad h (.inr (.inr (.inr (.inr (.inl ⟨rfl, by decide, by decide⟩))))),
    C76_linear_bad h (.inr (.inr (.inr (.inr (.inr ⟨rfl, by decide +kernel⟩)))))⟩
  · cases s <;> decide
  · cases s <;> decide
  · have : parseUInt (2 ^ 32) "-5".toList = none := by decide +kernel
    rw [this]; exact fun h => nomatch h

/-- C76_linear_default: with the colours of the default. -/
example : linear office "t.bmsh".toList (Function.update plainArgs "colormap" none) = linear office "t.bmsh".toList (Function.update plainArgs "colormap" (some "hot".toList)) :=
  C76_linear_default _ _ _ (by decide)

/-- C76_mesh, C76_mesh_bad: the rectangle is meshed. -/
theorem office_mesh : ∃ acts, mesh office "b.bbnd".toList "5".toList (Function.update plainArgs "mesher" (some "ruppert".toList)) = (acts, none) ∧ acts.length = 2 :=
  out_ok (by decide +kernel)

example : mesh office "b.bbnd".toList "5".toList (Function.update (Function.update plainArgs "mesher" (some "ruppert".toList)) "mesher" (some "delaunay".toList)) =
    ([], some (.arg "mesher")) := by
  obtain ⟨acts, h, -⟩ := office_mesh
  exact (C76_mesh_bad h).1 fun m => by cases m <;> decide

/-- The file system with a boundary that has no material. -/
def bare : Machine ℚ := { office with disk := { office.disk with content := fun _ => some "polygon\n0 0\n12 0\n12 4\n0 4\nend".toList } }

/-- C76_mesh_no_material: the picture is saved, but no mesh file. -/
example : ∃ img, mesh bare "b.bbnd".toList "4".toList plainArgs = ([img], some .run) := by
  have h : (match meshed bare "b.bbnd".toList "4".toList plainArgs with
    | .ok T => (match meshImage bare T plainArgs with
      | .ok _ => true
      | _ => false) && T.bound.material.isNone
    | _ => false) = true := by decide +kernel
  split at h
  · rename_i T hT
    obtain ⟨h1, h2⟩ := (Bool.and_eq_true _ _).mp h
    split at h1
    · rename_i img hi
      exact ⟨img, C76_mesh_no_material hT hi (by simpa using h2)⟩
    · cases h1
  · cases h

/-- C76_modal_bad: one mode of the triangle. -/
theorem office_modal : ∃ acts, modal office "t.bmsh".toList "1".toList plainArgs = (acts, none) ∧ acts.length = 2 := out_ok (by decide +kernel)

example : modal office "t.bmsh".toList "1".toList (Function.update plainArgs "colormap" (some "blue".toList)) = ([], some (.arg "colormap")) := by
  obtain ⟨acts, h, h'⟩ := office_modal
  exact C76_modal_bad h (by rintro rfl; cases h') (.inr (.inr (.inl ⟨rfl, by decide, by decide⟩))) (by decide) (by decide)

/-- C76_modal_unchecked: no mode, so that the unknown colours are not noticed. -/
example : modal office "t.bmsh".toList "+0".toList (Function.update plainArgs "colormap" (some "blue".toList)) = ([], none) := by
  obtain ⟨acts, h, h'⟩ : ∃ acts, modal office "t.bmsh".toList "+0".toList plainArgs = (acts, none) ∧ acts.length = 0 := out_ok (by decide +kernel)
  obtain rfl := List.eq_nil_of_length_eq_zero h'
  exact C76_modal_unchecked h (by decide) _

/-- C76_uint: counts with and without a sign, and other texts. -/
example : parseUInt (2 ^ 32) "1024".toList = some 1024 ∧ parseUInt (2 ^ 32) "+007".toList = some 7 ∧ parseUInt (2 ^ 32) "4294967296".toList = none ∧
    parseUInt (2 ^ 32) "+".toList = none ∧ parseUInt (2 ^ 32) "1.5".toList = none := by decide +kernel

end example76

end Cli
end Bugi
