import Verif.Props.Cli

/-! C112: what the errors of the commands say, and what a command that fails leaves behind. -/

set_option linter.unusedSectionVars false

namespace Bugi

namespace Mesh
open Plane

section
variable {K : Type} [Field K] [LinearOrder K] [IsStrictOrderedRing K] {α σ : Type}

theorem each_keeps {f : α → σ → Res σ} {P : σ → Prop} (h : ∀ x s, P s → f x s ≠ .error .err ∧ ∀ s', f x s = .ok s' → P s') :
    ∀ (l : List α) (s : σ), P s → each l s f ≠ .error .err ∧ ∀ s', each l s f = .ok s' → P s' := by
  intro l
  induction l with
  | nil => intro s hs; exact ⟨nofun, fun s' e => by cases e; exact hs⟩
  | cons x l ih =>
    intro s hs
    obtain ⟨h1, h2⟩ := h x s hs
    have e : each (x :: l) s f = (f x s >>= fun s => each l s f) := by simp [each]
    rw [e]
    rcases hf : f x s with e | s'
    · rw [hf] at h1
      exact ⟨h1, fun s' e => by cases e⟩
    · exact ih s' (h2 s' hf)

theorem res_err {x : Res α} {f : α → Res σ} (h : x ≠ .error .err) (hf : ∀ a, x = .ok a → f a ≠ .error .err) : (x >>= f) ≠ .error .err := by
  rcases x with e | a
  · exact fun k => h (by simpa [bind, Except.bind] using k)
  · exact hf a rfl

theorem node_err (m : List (Nat × Nat)) (v : Nat) : node m v ≠ .error .err := by
  unfold node
  cases hget m v <;> exact nofun

/-- **C112.** The error that `assemble` reports means that the boundary has no material, and nothing else. -/
theorem C112_assemble (o : Plane.Orders K) (T : Plane K) : assemble o T = .error .err ↔ T.bound.material = none := by
  refine ⟨fun h => ?_, C60_no_material T o⟩
  unfold assemble at h
  cases hm : T.bound.material with
  | none => rfl
  | some mat =>
    rw [hm] at h
    dsimp only at h
    cases hc : T.bound.condition with
    | none => rw [hc] at h; cases h
    | some cond =>
      rw [hc, unwrapO, Res.bind_ok] at h
      let P : Assemblage K → Prop := fun a => ∀ p ∈ a.nodes, ∃ x y, p = Point.pt2 x y
      have h1 : ∀ (m : List (Nat × Nat)) ts (a : Assemblage K), P a → addTris m ts a ≠ .error .err ∧ ∀ a', addTris m ts a = .ok a' → P a' := by
        intro m ts a
        refine each_keeps (P := P) (fun t a ha => ?_) ts a
        have key : ∀ x y z, a.addElement (x, y, z) ≠ .error .err ∧ ∀ a', a.addElement (x, y, z) = .ok a' → P a' := by
          intro x y z
          by_cases hlt : a.nodes.length ≤ x ∨ a.nodes.length ≤ y ∨ a.nodes.length ≤ z
          · rw [C46_missing (ids := (x, y, z)) hlt]
            exact ⟨nofun, nofun⟩
          · push Not at hlt
            obtain ⟨x0, y0, q0⟩ := ha _ (List.getElem_mem hlt.1)
            obtain ⟨x1, y1, q1⟩ := ha _ (List.getElem_mem hlt.2.1)
            obtain ⟨x2, y2, q2⟩ := ha _ (List.getElem_mem hlt.2.2)
            obtain ⟨el, -, -, k⟩ := C46_accepts_all (a := a) (ids := (x, y, z)) (X := ![x0, x1, x2]) (Y := ![y0, y1, y2])
              (by rw [List.getElem?_eq_getElem hlt.1, q0]; rfl) (by rw [List.getElem?_eq_getElem hlt.2.1, q1]; rfl) (by rw [List.getElem?_eq_getElem hlt.2.2, q2]; rfl)
            rw [k]
            exact ⟨nofun, fun a' e => by cases e; exact ha⟩
        refine ⟨res_err (node_err _ _) fun x _ => res_err (node_err _ _) fun y _ => res_err (node_err _ _) fun z _ => (key x y z).1, fun a' h => ?_⟩
        obtain ⟨x, -, h⟩ := Res.bind_eq_ok.1 h
        obtain ⟨y, -, h⟩ := Res.bind_eq_ok.1 h
        obtain ⟨z, -, h⟩ := Res.bind_eq_ok.1 h
        exact (key x y z).2 a' h
      have h2 : ∀ (m : List (Nat × Nat)) cs (a : Assemblage K), addCons m cs a ≠ .error .err := by
        intro m cs a
        refine (each_keeps (P := fun _ => True) (fun t a _ => ⟨?_, fun _ _ => trivial⟩) cs a trivial).1
        refine res_err (node_err _ _) fun x _ => ?_
        unfold Assemblage.addConstraint
        refine res_err ?_ fun c _ => res_err ?_ fun cs _ => nofun
        · unfold vget
          split <;> exact nofun
        · unfold vset
          split_ifs <;> exact nofun
      have h3 : ∀ (m : List (Nat × Nat)) fs (a : Assemblage K), addForces m fs a ≠ .error .err := by
        intro m fs a
        refine (each_keeps (P := fun _ => True) (fun t a _ => ⟨?_, fun _ _ => trivial⟩) fs a trivial).1
        exact res_err (node_err _ _) fun x _ => res_err (node_err _ _) fun y _ => nofun
      exfalso
      have hP : P ((Assemblage.new mat cond).addNodes (T.allVertices.map fun v => Point.pt2 (T.get v).1 (T.get v).2)).2 := by
        intro p hp
        simp only [Assemblage.addNodes, Assemblage.new, List.nil_append] at hp
        obtain ⟨v, -, rfl⟩ := List.mem_map.1 hp
        exact ⟨_, _, rfl⟩
      exact res_err (h1 _ _ _ hP).1 (fun a _ => res_err (h2 _ _ _) fun a _ => h3 _ _ _) h

end
end Mesh

namespace Cli
open Parse Mesh Files Visual

variable {K : Type} [Field K] [LinearOrder K] [FloorRing K] [IsStrictOrderedRing K] {α β : Type}

theorem step_err {ε : Type} {x : Except ε α} {f : α → Except ε β} {e : ε} : (x >>= f) = .error e ↔ x = .error e ∨ ∃ a, x = .ok a ∧ f a = .error e := by
  rcases x with e | a
  · simp [bind, Except.bind]
  · simp [bind, Except.bind]

theorem orPanic_err {r : Res α} {e : CErr} : orPanic r = .error e ↔ ∃ f, r = .error f ∧ e = .fault f := by
  rcases r with _ | _ <;> simp [orPanic, eq_comm]

theorem orArg_err {s : String} {r : Option α} {e : CErr} : orArg s r = .error e ↔ r = none ∧ e = .arg s := by
  rcases r with _ | _ <;> simp [orArg, eq_comm]

theorem orFile_err {r : Except FErr α} {e : CErr} : orFile r = .error e ↔ (∃ f, r = .error (.fault f) ∧ e = .fault f) ∨ ∃ x, r = .error x ∧ (∀ f, x ≠ .fault f) ∧ e = .file x := by
  match r with
  | .ok _ | .error (.fault _) | .error .noExt | .error .noOpen | .error .nonUni | .error .badParse | .error (.badType _) => simp [orFile, eq_comm]

theorem orRun_err {r : Res α} {e : CErr} : orRun r = .error e ↔ (r = .error .err ∧ e = .run) ∨ ∃ f, f ≠ .err ∧ r = .error f ∧ e = .fault f := by
  match r with
  | .ok _ | .error .err | .error .panic | .error .div0 | .error .neg | .error .fuel => simp [orRun, eq_comm]

/-- The value of an option, or the documented default in its place, is one that the option does not take. -/
def Refused (M : Machine K) (args : Args) (opt : String) : Prop := ∃ d, (opt, d) ∈ defaults ∧ Unusable M opt ((args opt).getD d)

/-- In the order of the list, `opt` is the first option whose value is not taken. -/
def FirstRefused (M : Machine K) (args : Args) (order : List String) (opt : String) : Prop :=
  ∃ l r, order = l ++ opt :: r ∧ Refused M args opt ∧ ∀ o ∈ l, ¬ Refused M args o

theorem refused_iff {M : Machine K} {args : Args} {opt : String} {d : Txt} (h : (opt, d) ∈ defaults) : Refused M args opt ↔ Unusable M opt ((args opt).getD d) := by
  constructor
  · rintro ⟨d', h', hu⟩
    have : d' = d := by
      simp only [defaults, List.mem_cons, Prod.mk.injEq, List.not_mem_nil, or_false] at h h'
      rcases h with ⟨rfl, rfl⟩ | ⟨rfl, rfl⟩ | ⟨rfl, rfl⟩ | ⟨rfl, rfl⟩ | ⟨rfl, rfl⟩ | ⟨rfl, rfl⟩ | ⟨rfl, rfl⟩ <;>
        simpa using h'
    rwa [← this]
  · exact fun hu => ⟨d, h, hu⟩

theorem unusable_solver {M : Machine K} {t : Txt} : Unusable M "solver" t ↔ ∀ s : Solver, t ≠ s.name := by simp [Unusable]
theorem unusable_value {M : Machine K} {t : Txt} : Unusable M "nodevalue" t ↔ ∀ s : Value, t ≠ s.name := by simp [Unusable]
theorem unusable_color {M : Machine K} {t : Txt} : Unusable M "colormap" t ↔ t ≠ "hot".toList ∧ t ≠ "rgb".toList := by simp [Unusable]
theorem unusable_size {M : Machine K} {t : Txt} : Unusable M "imsize" t ↔ ∀ n, parseUInt (2 ^ 32) t ≠ some n := by simp [Unusable]
theorem unusable_shown {M : Machine K} {t : Txt} : Unusable M "showmesh" t ↔ t ≠ "true".toList ∧ t ≠ "false".toList := by simp [Unusable]
theorem unusable_scale {M : Machine K} {t : Txt} : Unusable M "scale" t ↔ M.text.rd t = none := by simp [Unusable]

theorem solver_none {M : Machine K} {args : Args} : solverOf (args "solver") = none ↔ Refused M args "solver" := by
  rw [refused_iff (d := "densegauss".toList) (by decide), unusable_solver]
  constructor
  · intro h s hs
    cases ha : args "solver" with
    | none => rw [ha] at h; cases h
    | some t =>
      rw [ha, Option.getD_some] at hs
      rw [ha, (C76_solver (some t) s).2 (.inl (by rw [hs]))] at h
      cases h
  · intro h
    cases ha : args "solver" with
    | none => rw [ha] at h; exact absurd rfl (h .denseGauss)
    | some t =>
      rw [ha] at h
      cases hs : solverOf (some t) with
      | none => rfl
      | some s =>
        rcases (C76_solver _ _).1 hs with e | ⟨e, -⟩
        · exact absurd (Option.some.inj e) (h s)
        · cases e

theorem value_none {M : Machine K} {args : Args} : valueOf (args "nodevalue") = none ↔ Refused M args "nodevalue" := by
  rw [refused_iff (d := "displacement".toList) (by decide), unusable_value]
  constructor
  · intro h s hs
    cases ha : args "nodevalue" with
    | none => rw [ha] at h; cases h
    | some t =>
      rw [ha, Option.getD_some] at hs
      rw [ha, (C76_value (some t) s).2 (.inl (by rw [hs]))] at h
      cases h
  · intro h
    cases ha : args "nodevalue" with
    | none => rw [ha] at h; exact absurd rfl (h .displacement)
    | some t =>
      rw [ha] at h
      cases hs : valueOf (some t) with
      | none => rfl
      | some s =>
        rcases (C76_value _ _).1 hs with e | ⟨e, -⟩
        · exact absurd (Option.some.inj e) (h s)
        · cases e

theorem color_none {M : Machine K} {args : Args} : colorOf (K := K) (args "colormap") = none ↔ Refused M args "colormap" := by
  rw [refused_iff (d := "hot".toList) (by decide), unusable_color]
  cases ha : args "colormap" with
  | none => simp [colorOf]
  | some t =>
    rw [colorOf, Option.getD_some]
    split_ifs with h1 h2
    · exact ⟨nofun, fun h => absurd h1 h.1⟩
    · exact ⟨nofun, fun h => absurd h2 h.2⟩
    · exact ⟨fun _ => ⟨h1, h2⟩, fun _ => rfl⟩

theorem size_none {M : Machine K} {args : Args} : parseUInt (2 ^ 32) ((args "imsize").getD "1024".toList) = none ↔ Refused M args "imsize" := by
  rw [refused_iff (d := "1024".toList) (by decide), unusable_size, Option.eq_none_iff_forall_ne_some]

theorem shown_none {M : Machine K} {args : Args} : parseBool ((args "showmesh").getD "true".toList) = none ↔ Refused M args "showmesh" := by
  rw [refused_iff (d := "true".toList) (by decide), unusable_shown, parseBool]
  split_ifs with h1 h2
  · exact ⟨nofun, fun h => absurd h1 h.1⟩
  · exact ⟨nofun, fun h => absurd h2 h.2⟩
  · exact ⟨fun _ => ⟨h1, h2⟩, fun _ => rfl⟩

theorem scale_none {M : Machine K} {args : Args} : M.text.rd ((args "scale").getD "50.0".toList) = none ↔ Refused M args "scale" := by
  rw [refused_iff (d := "50.0".toList) (by decide), unusable_scale]

theorem not_refused {r : Option α} {P : Prop} (h : r = none ↔ P) {x : α} (hx : r = some x) : ¬ P := fun hP => by rw [h.2 hP] at hx; cases hx

theorem options_err {M : Machine K} {args : Args} {e : CErr} (h : visOptions (K := K) args = .error e) :
    ∃ opt, e = .arg opt ∧ FirstRefused M args ["colormap", "imsize", "showmesh"] opt := by
  unfold visOptions at h
  rcases step_err.1 h with h | ⟨cm, h1, h⟩
  · obtain ⟨hn, rfl⟩ := orArg_err.1 h
    exact ⟨_, rfl, [], _, rfl, (color_none (M := M)).1 hn, by simp⟩
  rcases step_err.1 h with h | ⟨n, h2, h⟩
  · obtain ⟨hn, rfl⟩ := orArg_err.1 h
    exact ⟨_, rfl, ["colormap"], _, rfl, (size_none (M := M)).1 hn, by simpa using not_refused color_none (orArg_ok.1 h1)⟩
  rcases step_err.1 h with h | ⟨b, h3, h⟩
  · obtain ⟨hn, rfl⟩ := orArg_err.1 h
    refine ⟨_, rfl, ["colormap", "imsize"], _, rfl, (shown_none (M := M)).1 hn, ?_⟩
    simpa using ⟨not_refused color_none (orArg_ok.1 h1), not_refused size_none (orArg_ok.1 h2)⟩
  · cases h

theorem drawTo_err {M : Machine K} {path : Txt} {vis : Visualizer K} {o : VisOptions K} {e : CErr} (h : drawTo M path vis o = .error e) : ∃ f, e = .fault f := by
  unfold drawTo at h
  rcases step_err.1 h with h | ⟨img, -, h⟩
  · obtain ⟨f, -, rfl⟩ := orPanic_err.1 h
    exact ⟨f, rfl⟩
  · split_ifs at h
    cases h
    exact ⟨_, rfl⟩

theorem FirstRefused.cons {M : Machine K} {args : Args} {l : List String} {opt o : String} (h : FirstRefused M args l opt) (ho : ¬ Refused M args o) : FirstRefused M args (o :: l) opt := by
  obtain ⟨a, b, rfl, h1, h2⟩ := h
  exact ⟨o :: a, b, rfl, h1, by simpa using ⟨ho, h2⟩⟩

/-- **C112.** What an error of `linear` says. An argument error names the first option, in a fixed order, whose value is not taken; by then the file has been read, and unless the solver is the
option, the displacements have been calculated. A file error is that of reading the file. There is no other error but a panic. -/
theorem C112_linear {M : Machine K} {input : Txt} {args : Args} {e : CErr} (h : linear M input args = .error e) :
    (∀ opt, e = .arg opt → FirstRefused M args ["solver", "scale", "nodevalue", "colormap", "imsize", "showmesh"] opt ∧ ∃ a, readElas M.text M.disk input = .ok a ∧
      (opt = "solver" ∨ ∃ (s : Solver) (disp : List (Point K)), (args "solver" = some s.name ∨ (args "solver" = none ∧ s = .denseGauss)) ∧ a.calcDisplacements M.tr M.sq M.srt (s.procedure M.sq) = .ok disp)) ∧
    (∀ x, e = .file x ↔ readElas M.text M.disk input = .error x ∧ ∀ f, x ≠ .fault f) ∧ e ≠ .run := by
  unfold linear at h
  rcases step_err.1 h with h | ⟨a, h1, h⟩
  · rcases orFile_err.1 h with ⟨f, h2, rfl⟩ | ⟨x, h2, h3, rfl⟩
    · refine ⟨nofun, fun x => ⟨nofun, ?_⟩, nofun⟩
      rintro ⟨k1, k2⟩
      rw [h2] at k1
      exact absurd (Except.error.inj k1).symm (k2 f)
    · refine ⟨nofun, fun y => ⟨?_, ?_⟩, nofun⟩
      · intro k
        obtain rfl := CErr.file.inj k
        exact ⟨h2, h3⟩
      · rintro ⟨k1, -⟩
        rw [h2] at k1
        rw [Except.error.inj k1]
  have h1 := orFile_ok.1 h1
  suffices H : (∃ f, e = .fault f) ∨ ∃ opt, e = .arg opt ∧ FirstRefused M args ["solver", "scale", "nodevalue", "colormap", "imsize", "showmesh"] opt ∧
      (opt = "solver" ∨ ∃ (s : Solver) (disp : List (Point K)), (args "solver" = some s.name ∨ (args "solver" = none ∧ s = .denseGauss)) ∧ a.calcDisplacements M.tr M.sq M.srt (s.procedure M.sq) = .ok disp) by
    have hf : ∀ x, e ≠ .file x := by
      rintro x rfl
      rcases H with ⟨f, k⟩ | ⟨o, k, -⟩ <;> cases k
    refine ⟨?_, fun x => ⟨fun k => absurd k (hf x), fun k => ?_⟩, ?_⟩
    · rintro opt rfl
      rcases H with ⟨f, k⟩ | ⟨o, k, k1, k2⟩
      · cases k
      · obtain rfl := CErr.arg.inj k
        exact ⟨k1, a, h1, k2⟩
    · rw [h1] at k
      cases k.1
    · rintro rfl
      rcases H with ⟨f, k⟩ | ⟨o, k, -⟩ <;> cases k
  have hp : ∀ {α : Type} {r : Res α}, orPanic r = .error e → ∃ f, e = .fault f := fun h => (orPanic_err.1 h).imp fun f h => h.2
  rcases step_err.1 h with h | ⟨s, h2, h⟩
  · obtain ⟨hn, rfl⟩ := orArg_err.1 h
    exact .inr ⟨_, rfl, ⟨[], _, rfl, (solver_none (M := M)).1 hn, by simp⟩, .inl rfl⟩
  have h2 := orArg_ok.1 h2
  have n1 := not_refused (solver_none (M := M)) h2
  rcases step_err.1 h with h | ⟨disp, h3, h⟩
  · exact .inl (hp h)
  have h3 := orPanic_ok.1 h3
  have hs : ∃ (s : Solver) (disp : List (Point K)), (args "solver" = some s.name ∨ (args "solver" = none ∧ s = .denseGauss)) ∧ a.calcDisplacements M.tr M.sq M.srt (s.procedure M.sq) = .ok disp :=
    ⟨s, disp, (C76_solver _ _).1 h2, by rw [← s.run_eq]; exact h3⟩
  rcases step_err.1 h with h | ⟨vm, h4, h⟩
  · exact .inl (hp h)
  rcases step_err.1 h with h | ⟨m, h5, h⟩
  · exact .inl (hp h)
  rcases step_err.1 h with h | ⟨d, h6, h⟩
  · exact .inl (hp h)
  rcases step_err.1 h with h | ⟨sc, h7, h⟩
  · obtain ⟨hn, rfl⟩ := orArg_err.1 h
    exact .inr ⟨_, rfl, ⟨["solver"], _, rfl, (scale_none (M := M)).1 hn, by simpa using n1⟩, .inr hs⟩
  have n2 := not_refused (scale_none (M := M)) (orArg_ok.1 h7)
  rcases step_err.1 h with h | ⟨vis, h8, h⟩
  · exact .inl (hp h)
  rcases step_err.1 h with h | ⟨v, h9, h⟩
  · obtain ⟨hn, rfl⟩ := orArg_err.1 h
    exact .inr ⟨_, rfl, ⟨["solver", "scale"], _, rfl, (value_none (M := M)).1 hn, by simpa using ⟨n1, n2⟩⟩, .inr hs⟩
  have n3 := not_refused (value_none (M := M)) (orArg_ok.1 h9)
  rcases step_err.1 h with h | ⟨vals, h10, h⟩
  · exact .inl (hp h)
  rcases step_err.1 h with h | ⟨vis', h11, h⟩
  · exact .inl (hp h)
  rcases step_err.1 h with h | ⟨o, h12, h⟩
  · obtain ⟨opt, rfl, k⟩ := options_err (M := M) h
    exact .inr ⟨opt, rfl, ((k.cons n3).cons n2).cons n1, .inr hs⟩
  rcases step_err.1 h with h | ⟨x, h13, h⟩
  · exact .inl (drawTo_err h)
  · cases h

theorem andThen_some {r : Except CErr α} {f : α → Out K} {acts : List (Act K)} {e : CErr} :
    andThen r f = (acts, some e) ↔ (r = .error e ∧ acts = []) ∨ ∃ x, r = .ok x ∧ f x = (acts, some e) := by
  rcases r with e | x <;> simp [andThen, eq_comm, and_comm]

theorem doing_some {acts acts' : List (Act K)} {o : Out K} {e : CErr} : doing acts o = (acts', some e) ↔ ∃ l, o = (l, some e) ∧ acts' = acts ++ l := by
  rcases o with ⟨l, e'⟩
  simp only [doing, Prod.mk.injEq]
  constructor
  · rintro ⟨h1, rfl⟩; exact ⟨l, ⟨rfl, rfl⟩, h1.symm⟩
  · rintro ⟨l', ⟨rfl, rfl⟩, h⟩; exact ⟨h.symm, rfl⟩

/-- **C112.** What an error of `mesh` says, and what is left behind. With an argument error or a file error nothing has been written; the error of `assemble` means that the boundary has no
material. A command that fails never leaves a mesh file; it may leave the picture, and does so exactly when the failure is in `assemble` or in writing the file. -/
theorem C112_mesh {M : Machine K} {input size : Txt} {args : Args} {acts : List (Act K)} {e : CErr} (h : mesh M input size args = (acts, some e)) :
    (∀ opt, e = .arg opt → acts = [] ∧ ((opt = "elementsize" ∧ M.text.rd size = none) ∨
      (opt = "mesher" ∧ M.text.rd size ≠ none ∧ ∃ t, args "mesher" = some t ∧ ∀ m : Mesher, t ≠ m.name) ∨
      (opt = "imsize" ∧ Refused M args "imsize" ∧ ∃ T, meshed M input size args = .ok T))) ∧
    (∀ x, e = .file x ↔ readBound M.geo M.text M.pos M.disk input = .error x ∧ ∀ f, x ≠ .fault f) ∧ (∀ x, e = .file x → acts = []) ∧
    (e = .run ↔ ∃ T img, meshed M input size args = .ok T ∧ meshImage M T args = .ok img ∧ T.bound.material = none) ∧
    ((acts = [] ∧ ∀ T, meshed M input size args = .ok T → meshImage M T args = .error e) ∨ ∃ T img, meshed M input size args = .ok T ∧ acts = [.image ((args "imageout").getD "out.png".toList) img] ∧
      ((e = .run ∧ T.bound.material = none) ∨ ∃ f, e = .fault f ∧ (T.assemble M.orders = .error f ∨ ∃ a, T.assemble M.orders = .ok a ∧
        saveElas M.text M.disk ((args "meshout").getD "out.bmsh".toList) a = .error f))) := by
  unfold mesh at h
  rcases andThen_some.1 h with ⟨hq, rfl⟩ | ⟨T, hT, h⟩
  · replace h := hq
    have hrun : (∃ T img, meshed M input size args = .ok T ∧ meshImage M T args = .ok img ∧ T.bound.material = none) ↔ False := by
      simp [h]
    rw [hrun]
    have hl : ∀ T, meshed M input size args = .ok T → meshImage M T args = .error e := fun T k => by rw [h] at k; cases k
    unfold meshed at h
    rcases step_err.1 h with h | ⟨b, h1, h⟩
    · rcases orFile_err.1 h with ⟨f, h2, rfl⟩ | ⟨x, h2, h3, rfl⟩
      · refine ⟨nofun, fun x => ⟨nofun, ?_⟩, nofun, ⟨nofun, nofun⟩, .inl ⟨rfl, hl⟩⟩
        rintro ⟨k1, k2⟩
        rw [h2] at k1
        exact absurd (Except.error.inj k1).symm (k2 f)
      · refine ⟨nofun, fun y => ⟨?_, ?_⟩, fun _ _ => rfl, ⟨nofun, nofun⟩, .inl ⟨rfl, hl⟩⟩
        · intro k
          obtain rfl := CErr.file.inj k
          exact ⟨h2, h3⟩
        · rintro ⟨k1, -⟩
          rw [h2] at k1
          rw [Except.error.inj k1]
    have h1 := orFile_ok.1 h1
    rcases step_err.1 h with h | ⟨w, h2, h⟩
    · obtain ⟨hn, rfl⟩ := orArg_err.1 h
      refine ⟨?_, fun x => ⟨nofun, fun k => ?_⟩, nofun, ⟨nofun, nofun⟩, .inl ⟨rfl, hl⟩⟩
      · rintro opt k
        obtain rfl := CErr.arg.inj k
        exact ⟨rfl, .inl ⟨rfl, hn⟩⟩
      · rw [h1] at k; cases k.1
    have h2 := orArg_ok.1 h2
    rcases step_err.1 h with h | ⟨m, h3, h⟩
    · obtain ⟨hn, rfl⟩ := orArg_err.1 h
      refine ⟨?_, fun x => ⟨nofun, fun k => ?_⟩, nofun, ⟨nofun, nofun⟩, .inl ⟨rfl, hl⟩⟩
      · rintro opt k
        obtain rfl := CErr.arg.inj k
        refine ⟨rfl, .inr (.inl ⟨rfl, by simp [h2], ?_⟩)⟩
        cases ht : args "mesher" with
        | none => rw [ht] at hn; cases hn
        | some t =>
          refine ⟨t, rfl, fun m hm => ?_⟩
          rw [ht, (C76_mesher (some t) m).2 (.inl (by rw [hm]))] at hn
          cases hn
      · rw [h1] at k; cases k.1
    · obtain ⟨f, -, rfl⟩ := orPanic_err.1 h
      exact ⟨nofun, fun x => ⟨nofun, fun k => by rw [h1] at k; cases k.1⟩, nofun, ⟨nofun, nofun⟩, .inl ⟨rfl, hl⟩⟩
  have hb : ∃ b, readBound M.geo M.text M.pos M.disk input = .ok b := by
    obtain ⟨b, k, -⟩ := meshed_ok.1 hT
    exact ⟨b, k⟩
  obtain ⟨b, hb⟩ := hb
  rcases andThen_some.1 h with ⟨hq, rfl⟩ | ⟨img, hi, h⟩
  · replace h := hq
    have hrun : (∃ T img, meshed M input size args = .ok T ∧ meshImage M T args = .ok img ∧ T.bound.material = none) ↔ False := by
      refine ⟨?_, False.elim⟩
      rintro ⟨T', img, k1, k2, -⟩
      obtain rfl := Except.ok.inj (hT.symm.trans k1)
      rw [h] at k2
      cases k2
    rw [hrun]
    have hl : ∀ T, meshed M input size args = .ok T → meshImage M T args = .error e := fun T' k => by
      obtain rfl := Except.ok.inj (hT.symm.trans k)
      exact h
    unfold meshImage at h
    rcases step_err.1 h with h | ⟨vis, h1, h⟩
    · obtain ⟨f, -, rfl⟩ := orPanic_err.1 h
      exact ⟨nofun, fun x => ⟨nofun, fun k => by rw [hb] at k; cases k.1⟩, nofun, ⟨nofun, nofun⟩, .inl ⟨rfl, hl⟩⟩
    rcases step_err.1 h with h | ⟨n, h2, h⟩
    · obtain ⟨hn, rfl⟩ := orArg_err.1 h
      refine ⟨?_, fun x => ⟨nofun, fun k => by rw [hb] at k; cases k.1⟩, nofun, ⟨nofun, nofun⟩, .inl ⟨rfl, hl⟩⟩
      rintro opt k
      obtain rfl := CErr.arg.inj k
      exact ⟨rfl, .inr (.inr ⟨rfl, size_none.1 hn, T, hT⟩)⟩
    · obtain ⟨f, rfl⟩ := drawTo_err h
      exact ⟨nofun, fun x => ⟨nofun, fun k => by rw [hb] at k; cases k.1⟩, nofun, ⟨nofun, nofun⟩, .inl ⟨rfl, hl⟩⟩
  obtain ⟨l, hq, rfl⟩ := doing_some.1 h
  replace h := hq
  rcases andThen_some.1 h with ⟨hz, rfl⟩ | ⟨txt, ht, h⟩
  · replace h := hz
    obtain ⟨im, rfl⟩ : ∃ im, img = .image ((args "imageout").getD "out.png".toList) im := by
      unfold meshImage at hi
      obtain ⟨vis, -, hi⟩ := step_ok.1 hi
      obtain ⟨n, -, hi⟩ := step_ok.1 hi
      obtain ⟨im, -, -, rfl⟩ := drawTo_ok.1 hi
      exact ⟨im, rfl⟩
    replace h := hz
    unfold meshText at h
    have hrun : (∃ T img, meshed M input size args = .ok T ∧ meshImage M T args = .ok img ∧ T.bound.material = none) ↔ T.bound.material = none := by
      constructor
      · rintro ⟨T', img, k1, k2, k3⟩
        obtain rfl := Except.ok.inj (hT.symm.trans k1)
        exact k3
      · exact fun k => ⟨T, _, hT, hi, k⟩
    rw [hrun]
    rcases step_err.1 h with h | ⟨a, h1, h⟩
    · rcases orRun_err.1 h with ⟨k1, rfl⟩ | ⟨f, k1, k2, rfl⟩
      · have hm := (C112_assemble _ _).1 k1
        exact ⟨nofun, fun x => ⟨nofun, fun k => by rw [hb] at k; cases k.1⟩, nofun, ⟨fun _ => hm, fun _ => rfl⟩, .inr ⟨T, im, hT, rfl, .inl ⟨rfl, hm⟩⟩⟩
      · refine ⟨nofun, fun x => ⟨nofun, fun k => by rw [hb] at k; cases k.1⟩, nofun, ⟨nofun, fun hm => ?_⟩, .inr ⟨T, im, hT, rfl, .inr ⟨f, rfl, .inl k2⟩⟩⟩
        rw [C60_no_material T _ hm] at k2
        exact absurd (Except.error.inj k2).symm k1
    · have h1 := orRun_ok.1 h1
      rcases step_err.1 h with h | ⟨x, h2, h⟩
      · obtain ⟨f, k, rfl⟩ := orPanic_err.1 h
        refine ⟨nofun, fun x => ⟨nofun, fun k => by rw [hb] at k; cases k.1⟩, nofun, ⟨nofun, fun hm => ?_⟩, .inr ⟨T, im, hT, rfl, .inr ⟨f, rfl, .inr ⟨a, h1, k⟩⟩⟩⟩
        rw [C60_no_material T _ hm] at h1
        cases h1
      · cases h
  · obtain ⟨l', h, -⟩ := doing_some.1 h
    cases h

theorem modesFrom_err {M : Machine K} {a : Assemblage K} {scale : K} {args : Args} {e : CErr} : ∀ {ms : List (List (Point K) × K)} {i : Nat} {acts : List (Act K)},
    modesFrom M a scale args i ms = (acts, some e) → ∃ (imgs : List Image) (m : List (Point K) × K), ms[imgs.length]? = some m ∧ acts = modeList i ((ms.take imgs.length).zip imgs) ∧
      modeActs M a scale args (i + imgs.length) m.1 m.2 = .error e ∧ (imgs ≠ [] → ∃ o, visOptions (K := K) args = .ok o) := by
  intro ms
  induction ms with
  | nil => intro i acts h; cases h
  | cons m ms ih =>
    intro i acts h
    rw [modesFrom, andThen_some] at h
    rcases h with ⟨h, rfl⟩ | ⟨x, h1, h⟩
    · exact ⟨[], m, rfl, rfl, h, fun h => absurd rfl h⟩
    · obtain ⟨l, hq, rfl⟩ := doing_some.1 h
      replace h := hq
      obtain ⟨imgs, m', k1, rfl, k3, -⟩ := ih h
      unfold modeActs at h1
      simp only [step_ok, orPanic_ok, drawTo_ok] at h1
      obtain ⟨vis, h6, vis', h7, o, h8, y, ⟨img, h9, -, rfl⟩, h10⟩ := h1
      obtain rfl := Except.ok.inj h10
      exact ⟨img :: imgs, m', by simpa using k1, by simp [modeList], by rw [List.length_cons, show i + (imgs.length + 1) = i + 1 + imgs.length by omega]; exact k3, fun _ => ⟨o, h8⟩⟩

/-- **C112.** What an error of `modal` says, and what is left behind. With an argument error or a file error nothing has been written, even though the options of the pictures are looked at
once for each mode; an option is named only after the modes have been found. Otherwise there was a panic; what was done before belongs to the first modes, a picture and a frequency for each of them, and at least one mode is missing. -/
theorem C112_modal {M : Machine K} {input num : Txt} {args : Args} {acts : List (Act K)} {e : CErr} (h : modal M input num args = (acts, some e)) :
    (∀ opt, e = .arg opt → acts = [] ∧ ((opt = "NUM" ∧ parseUInt (2 ^ 64) num = none) ∨
      (FirstRefused M args ["scale", "colormap", "imsize", "showmesh"] opt ∧ ∃ a n ms, readElas M.text M.disk input = .ok a ∧ parseUInt (2 ^ 64) num = some n ∧
        a.calcModes M.tr M.sq M.srt M.rng M.fuel n = .ok ms))) ∧
    (∀ x, e = .file x ↔ readElas M.text M.disk input = .error x ∧ ∀ f, x ≠ .fault f) ∧ (∀ x, e = .file x → acts = []) ∧ e ≠ .run ∧
    (acts = [] ∨ ∃ f a n ms imgs, e = .fault f ∧ readElas M.text M.disk input = .ok a ∧ parseUInt (2 ^ 64) num = some n ∧
      a.calcModes M.tr M.sq M.srt M.rng M.fuel n = .ok ms ∧ 0 < imgs.length ∧ imgs.length < ms.length ∧
      acts = (((ms.take imgs.length).zip imgs).zipIdx).flatMap fun e => [.image ("out_".toList ++ pad2 e.2 ++ ".png".toList) e.1.2, .mode e.2 e.1.1.2]) := by
  unfold modal at h
  rcases andThen_some.1 h with ⟨hq, rfl⟩ | ⟨r, hr, h⟩
  · replace h := hq
    unfold modes at h
    rcases step_err.1 h with h | ⟨a, h1, h⟩
    · rcases orFile_err.1 h with ⟨f, h2, rfl⟩ | ⟨x, h2, h3, rfl⟩
      · refine ⟨nofun, fun x => ⟨nofun, ?_⟩, nofun, nofun, .inl rfl⟩
        rintro ⟨k1, k2⟩
        rw [h2] at k1
        exact absurd (Except.error.inj k1).symm (k2 f)
      · refine ⟨nofun, fun y => ⟨?_, ?_⟩, fun _ _ => rfl, nofun, .inl rfl⟩
        · intro k
          obtain rfl := CErr.file.inj k
          exact ⟨h2, h3⟩
        · rintro ⟨k1, -⟩
          rw [h2] at k1
          rw [Except.error.inj k1]
    have h1 := orFile_ok.1 h1
    have hf : ∀ x, readElas M.text M.disk input = .error x → False := fun x k => by rw [h1] at k; cases k
    rcases step_err.1 h with h | ⟨n, h2, h⟩
    · obtain ⟨hn, rfl⟩ := orArg_err.1 h
      refine ⟨?_, fun x => ⟨nofun, fun k => (hf x k.1).elim⟩, nofun, nofun, .inl rfl⟩
      rintro opt k
      obtain rfl := CErr.arg.inj k
      exact ⟨rfl, .inl ⟨rfl, hn⟩⟩
    rcases step_err.1 h with h | ⟨ms, h3, h⟩
    · obtain ⟨f, -, rfl⟩ := orPanic_err.1 h
      exact ⟨nofun, fun x => ⟨nofun, fun k => (hf x k.1).elim⟩, nofun, nofun, .inl rfl⟩
    rcases step_err.1 h with h | ⟨sc, h4, h⟩
    · obtain ⟨hn, rfl⟩ := orArg_err.1 h
      refine ⟨?_, fun x => ⟨nofun, fun k => (hf x k.1).elim⟩, nofun, nofun, .inl rfl⟩
      rintro opt k
      obtain rfl := CErr.arg.inj k
      exact ⟨rfl, .inr ⟨⟨[], _, rfl, scale_none.1 hn, by simp⟩, a, n, ms, h1, orArg_ok.1 h2, orPanic_ok.1 h3⟩⟩
    · cases h
  obtain ⟨h5, n, h6, h7, h8⟩ := modes_ok.1 hr
  have hf : ∀ x, readElas M.text M.disk input = .error x → False := fun x k => by rw [h5] at k; cases k
  obtain ⟨imgs, m, k1, rfl, k3, k4⟩ := modesFrom_err h
  have hcase : (∃ f, e = .fault f) ∨ (imgs = [] ∧ ∃ opt, e = .arg opt ∧ FirstRefused M args ["scale", "colormap", "imsize", "showmesh"] opt) := by
    unfold modeActs at k3
    rcases step_err.1 k3 with h | ⟨vis, -, h⟩
    · exact .inl ((orPanic_err.1 h).imp fun f h => h.2)
    rcases step_err.1 h with h | ⟨vis', -, h⟩
    · exact .inl ((orPanic_err.1 h).imp fun f h => h.2)
    rcases step_err.1 h with h | ⟨o, -, h⟩
    · right
      refine ⟨?_, ?_⟩
      · by_contra hne
        obtain ⟨o, ho⟩ := k4 hne
        rw [h] at ho
        cases ho
      · obtain ⟨opt, rfl, k⟩ := options_err (M := M) h
        exact ⟨opt, rfl, k.cons (not_refused scale_none h8)⟩
    rcases step_err.1 h with h | ⟨x, -, h⟩
    · exact .inl (drawTo_err h)
    · cases h
  rcases hcase with ⟨f, rfl⟩ | ⟨rfl, opt, rfl, k⟩
  · refine ⟨nofun, fun x => ⟨nofun, fun k => (hf x k.1).elim⟩, nofun, nofun, ?_⟩
    by_cases hi : imgs = []
    · left
      rw [hi]
      rfl
    · exact .inr ⟨f, r.1, n, r.2.1, imgs, rfl, h5, h6, h7, List.length_pos_iff.2 hi, (List.getElem?_eq_some_iff.1 k1).1, rfl⟩
  · refine ⟨?_, fun x => ⟨nofun, fun k => (hf x k.1).elim⟩, nofun, nofun, .inl rfl⟩
    rintro opt' k'
    obtain rfl := CErr.arg.inj k'
    exact ⟨rfl, .inr ⟨k, r.1, n, r.2.1, h5, h6, h7⟩⟩

/-! ## Examples -/

section example112

-- C112_linear: two options are wrong, and the first of them in the order of the program is named; a file of another kind
example : linear office "t.bmsh".toList (Function.update (Function.update plainArgs "scale" (some "big".toList)) "colormap" (some "HOT".toList)) = .error (.arg "scale") ∧
    linear office "b.bbnd".toList plainArgs = .error (.file (.badType "bbnd".toList)) := by
  have h : (match linear office "t.bmsh".toList (Function.update (Function.update plainArgs "scale" (some "big".toList)) "colormap" (some "HOT".toList)),
      linear office "b.bbnd".toList plainArgs with
    | .error e, .error e' => decide (e = .arg "scale" ∧ e' = .file (.badType "bbnd".toList))
    | _, _ => false) = true := by decide +kernel
  split at h
  · rename_i e e' h1 h2
    obtain ⟨rfl, rfl⟩ := of_decide_eq_true h
    exact ⟨h1, h2⟩
  · cases h

/-- An `Out` with an error and with some number of actions. -/
theorem out_err {o : Out ℚ} {n : Nat} {e : CErr} (h : o.2 = some e ∧ o.1.length = n) : ∃ acts, o = (acts, some e) ∧ acts.length = n :=
  ⟨o.1, by rw [← h.1], h.2⟩

-- C112_mesh, C112_assemble: no material, a place where the mesh file cannot be written, and a size that is no number
example : (∃ acts, mesh bare "b.bbnd".toList "4".toList plainArgs = (acts, some .run) ∧ acts.length = 1) ∧
    (∃ acts, mesh { office with disk := { office.disk with writes := fun _ => false } } "b.bbnd".toList "5".toList (Function.update plainArgs "mesher" (some "ruppert".toList)) =
      (acts, some (.fault .panic)) ∧ acts.length = 1) ∧
    ∃ acts, mesh office "b.bbnd".toList "five".toList plainArgs = (acts, some (.arg "elementsize")) ∧ acts.length = 0 :=
  ⟨out_err (by decide +kernel), out_err (by decide +kernel), out_err (by decide +kernel)⟩

-- C112_modal: the second picture cannot be saved; a number of modes that is negative
example : (∃ acts, modal { office with disk := { office.disk with saves := fun p => decide (p ≠ "out_01.png".toList) } } "t.bmsh".toList "2".toList plainArgs =
      (acts, some (.fault .panic)) ∧ acts.length = 2) ∧
    ∃ acts, modal office "t.bmsh".toList "-1".toList plainArgs = (acts, some (.arg "NUM")) ∧ acts.length = 0 :=
  ⟨out_err (by decide +kernel), out_err (by decide +kernel)⟩

end example112

end Cli
end Bugi
