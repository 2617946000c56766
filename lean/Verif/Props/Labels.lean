import Verif.Props.BoundFile
import Verif.Props.ToAssemblage

/-! C73: the labels of boundary files. -/

namespace Bugi
namespace BoundFile
open Parse Mesh

variable {K : Type}

/-- The vertices of a file, in the order of the file. -/
def verts : List (Item K) → List (Vert K)
  | [] => []
  | .polygon vs :: is => vs ++ verts is
  | .condition _ :: is => verts is
  | .material _ :: is => verts is
  | .force .. :: is => verts is
  | .constraint .. :: is => verts is

/-- The polygons of a file. -/
def polys : List (Item K) → List (List (K × K))
  | [] => []
  | .polygon vs :: is => vs.map (fun v => (v.x, v.y)) :: polys is
  | .condition _ :: is => polys is
  | .material _ :: is => polys is
  | .force .. :: is => polys is
  | .constraint .. :: is => polys is

/-- `x` is the last entry of `l` with the property `p`. -/
def Last {α : Type} (p : α → Prop) (l : List α) (x : α) : Prop := ∃ pre post, l = pre ++ x :: post ∧ p x ∧ ∀ y ∈ post, ¬p y

/-- `v` is the number of the last vertex of the file with the label `l`; the vertices are numbered in the order of the file from `n` on. -/
def Carries (n : Nat) (items : List (Item K)) (l : Txt) (v : Nat) : Prop := ∃ u, Last (fun e : Vert K × Nat => e.1.label = some l) ((verts items).zipIdx n) (u, v)

/-- The item names the label `l`. -/
def Item.Uses (l : Txt) : Item K → Prop
  | .force p q _ _ => l = p ∨ l = q
  | .constraint p q _ => l = p ∨ l = q
  | _ => False

/-- The item is a force from `v` to `w`. -/
def Item.ForceOn (n : Nat) (items : List (Item K)) (v w : Nat) : Item K → Prop
  | .force p q _ _ => Carries n items p v ∧ Carries n items q w
  | _ => False

/-- The item is a constraint from `v` to `w`. -/
def Item.ConstraintOn (n : Nat) (items : List (Item K)) (v w : Nat) : Item K → Prop
  | .constraint p q _ => Carries n items p v ∧ Carries n items q w
  | _ => False

/-- The item is a condition. -/
def Item.IsCondition (it : Item K) : Prop := ∃ c, it = .condition c

/-- The item is a material. -/
def Item.IsMaterial (it : Item K) : Prop := ∃ m, it = .material m

/-! ## Last entries -/

theorem last_nil {α : Type} (p : α → Prop) (x : α) : ¬Last p [] x := by
  rintro ⟨pre, post, h, -⟩
  simp at h

theorem last_snoc {α : Type} (p : α → Prop) (l : List α) (x y : α) : Last p (l ++ [y]) x ↔ (p y ∧ x = y) ∨ (¬p y ∧ Last p l x) := by
  constructor
  · rintro ⟨pre, post, h, hx, hpost⟩
    rcases List.eq_nil_or_concat post with rfl | ⟨post', z, rfl⟩
    · obtain ⟨rfl, h2⟩ := List.append_inj' h rfl
      obtain rfl : y = x := by simpa using h2
      exact .inl ⟨hx, rfl⟩
    · rw [List.concat_eq_append] at h hpost
      rw [← List.cons_append, ← List.append_assoc] at h
      obtain ⟨rfl, h2⟩ := List.append_inj' h rfl
      obtain rfl : y = z := by simpa using h2
      exact .inr ⟨hpost y (by simp), pre, post', rfl, hx, fun z hz => hpost z (by simp [hz])⟩
  · rintro (⟨hy, rfl⟩ | ⟨hy, pre, post, rfl, hx, hpost⟩)
    · exact ⟨l, [], rfl, hy, by simp⟩
    · refine ⟨pre, post ++ [y], by simp, hx, fun z hz => ?_⟩
      rcases List.mem_append.1 hz with hz | hz
      · exact hpost z hz
      · rw [List.mem_singleton.1 hz]; exact hy

theorem last_exists {α : Type} {p : α → Prop} {l : List α} {x : α} (hx : x ∈ l) (h : p x) : ∃ y, Last p l y := by
  induction l using List.reverseRecOn with
  | nil => cases hx
  | append_singleton l z ih =>
    by_cases hz : p z
    · exact ⟨z, (last_snoc p l z z).2 (.inl ⟨hz, rfl⟩)⟩
    · rcases List.mem_append.1 hx with hx | hx
      · obtain ⟨y, hy⟩ := ih hx
        exact ⟨y, (last_snoc p l y z).2 (.inr ⟨hz, hy⟩)⟩
      · rw [List.mem_singleton.1 hx] at h
        exact absurd h hz

theorem Last.mem {α : Type} {p : α → Prop} {l : List α} {x : α} (h : Last p l x) : x ∈ l ∧ p x := by
  obtain ⟨pre, post, rfl, h, -⟩ := h
  exact ⟨by simp, h⟩

theorem verts_append (is js : List (Item K)) : verts (is ++ js) = verts is ++ verts js := by
  induction is with
  | nil => rfl
  | cons i is ih => cases i <;> simp [verts, ih]

theorem polys_append (is js : List (Item K)) : polys (is ++ js) = polys is ++ polys js := by
  induction is with
  | nil => rfl
  | cons i is ih => cases i <;> simp [polys, ih]

/-! ## Labels -/

/-- The map holds the last vertex of every label. -/
def Labels (m : List (Txt × Nat)) (es : List (Vert K × Nat)) : Prop := ∀ l v, hget m l = some v ↔ ∃ u, Last (fun e : Vert K × Nat => e.1.label = some l) es (u, v)

theorem labels_add {m : List (Txt × Nat)} {es : List (Vert K × Nat)} (h : Labels m es) (fs : List (Vert K × Nat)) :
    Labels (fs.foldl (fun m e => match e.1.label with
      | some l => hset m l e.2
      | none => m) m) (es ++ fs) := by
  induction fs generalizing m es with
  | nil => simpa using h
  | cons e fs ih =>
    have hs : Labels (match e.1.label with
      | some l => hset m l e.2
      | none => m) (es ++ [e]) := by
      intro l v
      simp only [last_snoc]
      cases he : e.1.label with
      | none => simpa using h l v
      | some l' =>
        dsimp only
        rw [hget_hset]
        by_cases hl : l' = l
        · subst hl
          rw [if_pos rfl]
          constructor
          · intro hv
            obtain rfl := Option.some.inj hv
            exact ⟨e.1, .inl ⟨rfl, rfl⟩⟩
          · rintro ⟨u, ⟨-, hu⟩ | ⟨hn, -⟩⟩
            · rw [← hu]
            · exact absurd rfl hn
        · rw [if_neg hl, h l v]
          refine exists_congr fun u => ⟨fun hu => .inr ⟨fun hc => hl (Option.some.inj hc), hu⟩, ?_⟩
          rintro (⟨hc, -⟩ | ⟨-, hu⟩)
          · exact absurd (Option.some.inj hc) hl
          · exact hu
    have := ih hs
    rw [List.append_assoc] at this
    exact this

theorem Carries.lt {n : Nat} {items : List (Item K)} {l : Txt} {v : Nat} (h : Carries n items l v) :
    n ≤ v ∧ v < n + (verts items).length ∧ ∃ u, (verts items)[v - n]? = some u ∧ u.label = some l := by
  obtain ⟨u, h⟩ := h
  obtain ⟨h1, h2⟩ := h.mem
  rw [List.mem_zipIdx_iff_le_and_getElem?_sub] at h1
  obtain ⟨h3, h4⟩ := h1
  obtain ⟨h5, -⟩ := List.getElem?_eq_some_iff.1 h4
  dsimp only at h3 h4 h5
  exact ⟨h3, by omega, u, h4, h2⟩

variable [Field K] [LinearOrder K] [IsStrictOrderedRing K] [FloorRing K]

/-- What is known after the first pass. -/
structure First (g : Geo K) (pos : List (K × K)) (items : List (Item K)) (b : Boundary K) (labels : List (Txt × Nat)) : Prop where
  run : runOps g (Boundary.new pos) ((polys items).map .polygon) = .ok b
  points : b.pos = pos ++ (verts items).map fun v => (v.x, v.y)
  vertices : b.vertices = List.range' pos.length (verts items).length
  labels : ∀ l v, hget labels l = some v ↔ Carries pos.length items l v
  data : b.constraints = [] ∧ b.forces = [] ∧ b.distC = [] ∧ b.material = none ∧ b.condition = none

omit [IsStrictOrderedRing K] in
theorem first_ok {g : Geo K} {pos : List (K × K)} {items : List (Item K)} {r : Boundary K × List (Txt × Nat)} (h : firstPass g items (Boundary.new pos) = .ok r) :
    First g pos items r.1 r.2 := by
  refine each_inv (fun pre (st : Boundary K × List (Txt × Nat)) => First g pos pre st.1 st.2) ?_ ?_ h
  · refine ⟨rfl, by simp [Boundary.new, verts], by simp [Boundary.new, verts], fun l v => ?_, by simp [Boundary.new]⟩
    constructor
    · intro h; cases h
    · rintro ⟨u, hu⟩
      exact absurd hu (last_nil _ _)
  · intro pre it post st st' _ hF hf
    have same : ∀ {it : Item K}, verts [it] = [] → polys [it] = [] → st' = st → First g pos (pre ++ [it]) st'.1 st'.2 := by
      rintro it h1 h2 rfl
      have e1 : verts (pre ++ [it]) = verts pre := by rw [verts_append, h1, List.append_nil]
      have e2 : polys (pre ++ [it]) = polys pre := by rw [polys_append, h2, List.append_nil]
      refine ⟨by rw [e2]; exact hF.run, by rw [e1]; exact hF.points, by rw [e1]; exact hF.vertices, fun l v => ?_, hF.data⟩
      rw [Carries, e1]
      exact hF.labels l v
    cases it with
    | polygon vs =>
      obtain ⟨⟨ids, b'⟩, h1, hf⟩ := Res.bind_eq_ok.1 hf
      obtain rfl := Except.ok.inj hf
      obtain ⟨loops, base, hI⟩ := (Inv.new 0 pos).run (fun _ _ => Nat.zero_le _) hF.run
      obtain ⟨-, e2, e3⟩ := polygon_effect hI.old (fun v hv => hI.blt v (hI.bases.keys.mem_iff.1 hv)) h1
      have hl : st.1.pos.length = pos.length + (verts pre).length := by rw [hF.points]; simp
      rw [List.length_map, hl] at e2
      have e1 : verts (pre ++ [.polygon vs]) = verts pre ++ vs := by rw [verts_append]; simp [verts]
      have e4 : polys (pre ++ [.polygon vs]) = polys pre ++ [vs.map fun v => (v.x, v.y)] := by rw [polys_append]; rfl
      dsimp only
      refine ⟨?_, ?_, ?_, fun l v => ?_, ?_⟩
      · rw [e4, List.map_append, runOps, each_append, show each _ _ _ = _ from hF.run, Res.bind_ok]
        simp only [List.map_cons, List.map_nil, each_cons, each_nil, Op.run, h1]
        rfl
      · rw [e3, e1, hF.points]; simp
      · rw [e3, e1, e2, hF.vertices, List.length_append]
        dsimp only
        rw [List.range'_append_1]
      · have := labels_add (m := st.2) (es := (verts pre).zipIdx pos.length) hF.labels (vs.zip ids) l v
        rw [Carries, e1, List.zipIdx_append]
        rw [e2, ← List.zipIdx_eq_zip_range'] at this
        rw [e2, addLabels, ← List.zipIdx_eq_zip_range']
        exact this
      · rw [e3]; exact hF.data
    | condition c => exact same rfl rfl (Except.ok.inj hf).symm
    | material m => exact same rfl rfl (Except.ok.inj hf).symm
    | force p q x y => exact same rfl rfl (Except.ok.inj hf).symm
    | constraint p q c => exact same rfl rfl (Except.ok.inj hf).symm

omit [IsStrictOrderedRing K] in
/-- The first pass succeeds if the polygons can be stored. -/
theorem first_of_run {g : Geo K} {items : List (Item K)} {b b' : Boundary K} (labels : List (Txt × Nat)) (h : runOps g b ((polys items).map .polygon) = .ok b') :
    ∃ r, each items (b, labels) (fun it st =>
      match it.polygon? with
      | some vs => do
        let r ← st.1.storePolygon g (vs.map fun v => (v.x, v.y))
        .ok (r.2, addLabels vs r.1 st.2)
      | none => .ok st) = .ok r := by
  induction items generalizing b labels with
  | nil => exact ⟨_, rfl⟩
  | cons i is ih =>
    rw [each_cons]
    cases i with
    | polygon vs =>
      rw [polys, List.map_cons, runOps, each_cons] at h
      obtain ⟨b₁, h1, h2⟩ := Res.bind_eq_ok.1 h
      obtain ⟨⟨ids, b₂⟩, h3, h4⟩ := Res.map_eq_ok.1 h1
      dsimp only at h4
      subst h4
      simp only [Item.polygon?, h3, Res.bind_ok]
      exact ih _ h2
    | condition c => exact ih _ h
    | material m => exact ih _ h
    | force p q x y => exact ih _ h
    | constraint p q c => exact ih _ h

/-! ## The second pass -/

omit [IsStrictOrderedRing K] [FloorRing K] [Field K] [LinearOrder K] in
theorem resolve_ok {labels : List (Txt × Nat)} {l : Txt} {v : Nat} (h : hget labels l = some v) : resolve labels l = .ok v := by rw [resolve, h]

omit [IsStrictOrderedRing K] [FloorRing K] [Field K] [LinearOrder K] in
theorem resolve_some {labels : List (Txt × Nat)} {l : Txt} {v : Nat} (h : resolve labels l = .ok v) : hget labels l = some v := by
  unfold resolve at h
  split at h
  · rename_i w hw
    rw [hw, Except.ok.inj h]
  · cases h

omit [IsStrictOrderedRing K] [FloorRing K] [Field K] [LinearOrder K] in
theorem resolve_none {labels : List (Txt × Nat)} {l : Txt} (h : hget labels l = none) : resolve labels l = .error .err := by rw [resolve, h]

/-- The parts of the boundary that the second pass leaves alone. -/
def SameShape (b b' : Boundary K) : Prop :=
  b'.pos = b.pos ∧ b'.vertices = b.vertices ∧ b'.wallStarts = b.wallStarts ∧ b'.segMap = b.segMap ∧ b'.segSet = b.segSet ∧ b'.baseStarts = b.baseStarts ∧
    b'.baseMap = b.baseMap ∧ b'.constraints = b.constraints

/-- What is known after the second pass over the items `pre`. -/
structure Second (n : Nat) (all pre : List (Item K)) (b b' : Boundary K) : Prop where
  shape : SameShape b b'
  used : ∀ it ∈ pre, ∀ l, it.Uses l → ∃ v, Carries n all l v
  forces : ∀ v w f, hget b'.forces (v, w) = some f ↔ ∃ p q, Last (Item.ForceOn n all v w) pre (.force p q f.1 f.2)
  distC : ∀ v w c, hget b'.distC (v, w) = some c ↔ ∃ p q, Last (Item.ConstraintOn n all v w) pre (.constraint p q c)
  condition : ∀ c, b'.condition = some c ↔ Last Item.IsCondition pre (.condition c)
  material : ∀ m, b'.material = some m ↔ Last Item.IsMaterial pre (.material m)

omit [IsStrictOrderedRing K] in
theorem second_ok {g : Geo K} {pos : List (K × K)} {items : List (Item K)} {b b' : Boundary K} {labels : List (Txt × Nat)} (hF : First g pos items b labels)
    (h : secondPass labels items b = .ok b') : Second pos.length items items b b' := by
  obtain ⟨d1, d2, d3, d4, d5⟩ := hF.data
  have L := hF.labels
  have uniq : ∀ l v w, Carries pos.length items l v → Carries pos.length items l w → v = w := by
    intro l v w h1 h2
    exact Option.some.inj (((L l v).2 h1).symm.trans ((L l w).2 h2))
  refine each_inv (fun pre b' => Second pos.length items pre b b') ?_ ?_ h
  · refine ⟨⟨rfl, rfl, rfl, rfl, rfl, rfl, rfl, rfl⟩, by simp, ?_, ?_, ?_, ?_⟩
    · intro v w f; rw [d2]; simp [hget, last_nil]
    · intro v w f; rw [d3]; simp [hget, last_nil]
    · intro c; rw [d5]; simp [last_nil]
    · intro c; rw [d4]; simp [last_nil]
  · intro pre it post b₁ b₂ _ hS hf
    have skip : ∀ {p : Item K → Prop} {x : Item K}, ¬p it → (Last p (pre ++ [it]) x ↔ Last p pre x) := by
      intro p x hp
      rw [last_snoc]
      simp [hp]
    have used : (∀ l, it.Uses l → ∃ v, Carries pos.length items l v) → ∀ i ∈ pre ++ [it], ∀ l, i.Uses l → ∃ v, Carries pos.length items l v := by
      intro h i hi
      rcases List.mem_append.1 hi with hi | hi
      · exact hS.used i hi
      · rw [List.mem_singleton.1 hi]; exact h
    cases it with
    | polygon vs =>
      obtain rfl := Except.ok.inj hf
      refine ⟨hS.shape, used (fun l h => h.elim), fun v w f => ?_, fun v w f => ?_, fun c => ?_, fun c => ?_⟩
      · rw [hS.forces]; simp only [skip (p := Item.ForceOn pos.length items v w) (fun h => h)]
      · rw [hS.distC]; simp only [skip (p := Item.ConstraintOn pos.length items v w) (fun h => h)]
      · rw [hS.condition, skip (by rintro ⟨c, h⟩; cases h)]
      · rw [hS.material, skip (by rintro ⟨c, h⟩; cases h)]
    | condition c₀ =>
      obtain rfl := Except.ok.inj hf
      refine ⟨hS.shape, used (fun l h => h.elim), fun v w f => ?_, fun v w f => ?_, fun c => ?_, fun c => ?_⟩
      · rw [hS.forces]; simp only [skip (p := Item.ForceOn pos.length items v w) (fun h => h)]
      · rw [hS.distC]; simp only [skip (p := Item.ConstraintOn pos.length items v w) (fun h => h)]
      · rw [last_snoc]
        simp [Item.IsCondition, eq_comm]
      · rw [hS.material, skip (by rintro ⟨c, h⟩; cases h)]
    | material m₀ =>
      obtain rfl := Except.ok.inj hf
      refine ⟨hS.shape, used (fun l h => h.elim), fun v w f => ?_, fun v w f => ?_, fun c => ?_, fun c => ?_⟩
      · rw [hS.forces]; simp only [skip (p := Item.ForceOn pos.length items v w) (fun h => h)]
      · rw [hS.distC]; simp only [skip (p := Item.ConstraintOn pos.length items v w) (fun h => h)]
      · rw [hS.condition, skip (by rintro ⟨c, h⟩; cases h)]
      · rw [last_snoc]
        simp [Item.IsMaterial, eq_comm]
    | force p q x y =>
      obtain ⟨v₀, h1, hf⟩ := Res.bind_eq_ok.1 hf
      obtain ⟨w₀, h2, hf⟩ := Res.bind_eq_ok.1 hf
      obtain rfl := Except.ok.inj hf
      have c1 := (L p v₀).1 (resolve_some h1)
      have c2 := (L q w₀).1 (resolve_some h2)
      refine ⟨hS.shape, used ?_, fun v w f => ?_, fun v w f => ?_, fun c => ?_, fun c => ?_⟩
      · rintro l (rfl | rfl)
        · exact ⟨v₀, c1⟩
        · exact ⟨w₀, c2⟩
      · rw [Boundary.storeForce]
        dsimp only
        rw [hget_hset]
        simp only [last_snoc]
        by_cases he : (v₀, w₀) = (v, w)
        · obtain ⟨rfl, rfl⟩ := Prod.mk.inj he
          rw [if_pos rfl]
          constructor
          · intro hv
            obtain rfl := Option.some.inj hv
            exact ⟨p, q, .inl ⟨⟨c1, c2⟩, rfl⟩⟩
          · rintro ⟨p', q', ⟨-, hu⟩ | ⟨hn, -⟩⟩
            · obtain ⟨rfl, rfl, rfl, rfl⟩ := Item.force.inj hu
              rfl
            · exact absurd ⟨c1, c2⟩ hn
        · rw [if_neg he, hS.forces]
          have hn : ¬(Item.force p q x y).ForceOn pos.length items v w := by
            rintro ⟨e1, e2⟩
            exact he (Prod.ext (uniq _ _ _ c1 e1) (uniq _ _ _ c2 e2))
          refine exists_congr fun p' => exists_congr fun q' => ⟨fun hu => .inr ⟨hn, hu⟩, ?_⟩
          rintro (⟨hc, -⟩ | ⟨-, hu⟩)
          · exact absurd hc hn
          · exact hu
      · rw [Boundary.storeForce, hS.distC]; simp only [skip (p := Item.ConstraintOn pos.length items v w) (fun h => h)]
      · rw [Boundary.storeForce, hS.condition, skip (by rintro ⟨c, h⟩; cases h)]
      · rw [Boundary.storeForce, hS.material, skip (by rintro ⟨c, h⟩; cases h)]
    | constraint p q k =>
      obtain ⟨v₀, h1, hf⟩ := Res.bind_eq_ok.1 hf
      obtain ⟨w₀, h2, hf⟩ := Res.bind_eq_ok.1 hf
      obtain rfl := Except.ok.inj hf
      have c1 := (L p v₀).1 (resolve_some h1)
      have c2 := (L q w₀).1 (resolve_some h2)
      refine ⟨hS.shape, used ?_, fun v w f => ?_, fun v w f => ?_, fun c => ?_, fun c => ?_⟩
      · rintro l (rfl | rfl)
        · exact ⟨v₀, c1⟩
        · exact ⟨w₀, c2⟩
      · rw [Boundary.storeDistC, hS.forces]; simp only [skip (p := Item.ForceOn pos.length items v w) (fun h => h)]
      · rw [Boundary.storeDistC]
        dsimp only
        rw [hget_hset]
        simp only [last_snoc]
        by_cases he : (v₀, w₀) = (v, w)
        · obtain ⟨rfl, rfl⟩ := Prod.mk.inj he
          rw [if_pos rfl]
          constructor
          · intro hv
            obtain rfl := Option.some.inj hv
            exact ⟨p, q, .inl ⟨⟨c1, c2⟩, rfl⟩⟩
          · rintro ⟨p', q', ⟨-, hu⟩ | ⟨hn, -⟩⟩
            · obtain ⟨rfl, rfl, rfl⟩ := Item.constraint.inj hu
              rfl
            · exact absurd ⟨c1, c2⟩ hn
        · rw [if_neg he, hS.distC]
          have hn : ¬(Item.constraint p q k).ConstraintOn pos.length items v w := by
            rintro ⟨e1, e2⟩
            exact he (Prod.ext (uniq _ _ _ c1 e1) (uniq _ _ _ c2 e2))
          refine exists_congr fun p' => exists_congr fun q' => ⟨fun hu => .inr ⟨hn, hu⟩, ?_⟩
          rintro (⟨hc, -⟩ | ⟨-, hu⟩)
          · exact absurd hc hn
          · exact hu
      · rw [Boundary.storeDistC, hS.condition, skip (by rintro ⟨c, h⟩; cases h)]
      · rw [Boundary.storeDistC, hS.material, skip (by rintro ⟨c, h⟩; cases h)]

omit [IsStrictOrderedRing K] [FloorRing K] [LinearOrder K] [Field K] in
/-- The second pass either succeeds, or some label is missing and it gives an error. -/
theorem second_total (labels : List (Txt × Nat)) (items : List (Item K)) (b : Boundary K) :
    ((∀ it ∈ items, ∀ l, it.Uses l → ∃ v, hget labels l = some v) → ∃ b', secondPass labels items b = .ok b') ∧
    ((¬∀ it ∈ items, ∀ l, it.Uses l → ∃ v, hget labels l = some v) → secondPass labels items b = .error .err) := by
  induction items generalizing b with
  | nil => exact ⟨fun _ => ⟨b, rfl⟩, fun h => absurd (by simp) h⟩
  | cons it items ih =>
    have pass : ∀ b₁ : Boundary K, secondPass labels (it :: items) b = secondPass labels items b₁ → (∀ l, it.Uses l → ∃ v, hget labels l = some v) →
        ((∀ i ∈ it :: items, ∀ l, i.Uses l → ∃ v, hget labels l = some v) → ∃ b', secondPass labels (it :: items) b = .ok b') ∧
        ((¬∀ i ∈ it :: items, ∀ l, i.Uses l → ∃ v, hget labels l = some v) → secondPass labels (it :: items) b = .error .err) := by
      intro b₁ he hu
      have hiff : (∀ i ∈ it :: items, ∀ l, i.Uses l → ∃ v, hget labels l = some v) ↔ ∀ i ∈ items, ∀ l, i.Uses l → ∃ v, hget labels l = some v :=
        ⟨fun h i hi => h i (by simp [hi]), fun h i hi => by
          rcases List.mem_cons.1 hi with rfl | hi
          · exact hu
          · exact h i hi⟩
      rw [hiff, he]
      exact ih b₁
    have stop : ∀ l, it.Uses l → hget labels l = none → secondPass labels (it :: items) b = .error .err →
        ((∀ i ∈ it :: items, ∀ l, i.Uses l → ∃ v, hget labels l = some v) → ∃ b', secondPass labels (it :: items) b = .ok b') ∧
        ((¬∀ i ∈ it :: items, ∀ l, i.Uses l → ∃ v, hget labels l = some v) → secondPass labels (it :: items) b = .error .err) := by
      intro l hl hn he
      refine ⟨fun h => ?_, fun _ => he⟩
      obtain ⟨v, hv⟩ := h it (by simp) l hl
      rw [hn] at hv
      cases hv
    cases it with
    | polygon vs => exact pass b rfl (fun l h => h.elim)
    | condition c => exact pass { b with condition := some c } rfl (fun l h => h.elim)
    | material m => exact pass { b with material := some m } rfl (fun l h => h.elim)
    | force p q x y =>
      cases hp : hget labels p with
      | none => exact stop p (.inl rfl) hp (by rw [secondPass, each_cons]; simp only [resolve_none hp]; rfl)
      | some v =>
        cases hq : hget labels q with
        | none => exact stop q (.inr rfl) hq (by rw [secondPass, each_cons]; simp only [resolve_ok hp, resolve_none hq]; rfl)
        | some w =>
          refine pass (b.storeForce v w (x, y)) (by rw [secondPass, each_cons]; simp only [resolve_ok hp, resolve_ok hq]; rfl) ?_
          rintro l (rfl | rfl)
          · exact ⟨v, hp⟩
          · exact ⟨w, hq⟩
    | constraint p q c =>
      cases hp : hget labels p with
      | none => exact stop p (.inl rfl) hp (by rw [secondPass, each_cons]; simp only [resolve_none hp]; rfl)
      | some v =>
        cases hq : hget labels q with
        | none => exact stop q (.inr rfl) hq (by rw [secondPass, each_cons]; simp only [resolve_ok hp, resolve_none hq]; rfl)
        | some w =>
          refine pass (b.storeDistC v w c) (by rw [secondPass, each_cons]; simp only [resolve_ok hp, resolve_ok hq]; rfl) ?_
          rintro l (rfl | rfl)
          · exact ⟨v, hp⟩
          · exact ⟨w, hq⟩

omit [IsStrictOrderedRing K] in
/-- **C73.** A boundary that was read: its vertices are those of the file, in this order; its walls are those of the polygons; every label that is used belongs to a
vertex; the force (constraint) recorded for `v` and `w` is the last one in the file whose labels belong to `v` and `w`; condition and material are the last ones. A
label that occurs twice belongs to the later vertex. -/
theorem C73_resolved (g : Geo K) (pos : List (K × K)) (items : List (Item K)) (b : Boundary K) (h : toBounds g pos items = .ok b) :
    b.pos = pos ++ (verts items).map (fun v => (v.x, v.y)) ∧ b.vertices = List.range' pos.length (verts items).length ∧
      (∃ b₀, runOps g (Boundary.new pos) ((polys items).map .polygon) = .ok b₀ ∧ SameShape b₀ b) ∧
      (∀ it ∈ items, ∀ l, it.Uses l → ∃ v, Carries pos.length items l v) ∧
      (∀ v w f, hget b.forces (v, w) = some f ↔ ∃ p q, Last (Item.ForceOn pos.length items v w) items (.force p q f.1 f.2)) ∧
      (∀ v w c, hget b.distC (v, w) = some c ↔ ∃ p q, Last (Item.ConstraintOn pos.length items v w) items (.constraint p q c)) ∧
      (∀ c, b.condition = some c ↔ Last Item.IsCondition items (.condition c)) ∧ (∀ m, b.material = some m ↔ Last Item.IsMaterial items (.material m)) := by
  obtain ⟨⟨b₀, labels⟩, h1, h2⟩ := Res.bind_eq_ok.1 h
  have hF := first_ok h1
  have hS := second_ok hF h2
  refine ⟨?_, ?_, ⟨b₀, hF.run, hS.shape⟩, hS.used, hS.forces, hS.distC, hS.condition, hS.material⟩
  · rw [hS.shape.1, hF.points]
  · rw [hS.shape.2.1, hF.vertices]

omit [IsStrictOrderedRing K] in
/-- **C73.** A force is never lost: the pair of vertices of its labels has a force in the boundary, and so for constraints. -/
theorem C73_kept (g : Geo K) (pos : List (K × K)) (items : List (Item K)) (b : Boundary K) (h : toBounds g pos items = .ok b) :
    (∀ p q x y, Item.force p q x y ∈ items → ∃ v w f, Carries pos.length items p v ∧ Carries pos.length items q w ∧ hget b.forces (v, w) = some f) ∧
    (∀ p q c, Item.constraint p q c ∈ items → ∃ v w c', Carries pos.length items p v ∧ Carries pos.length items q w ∧ hget b.distC (v, w) = some c') := by
  obtain ⟨-, -, -, hu, hf, hc, -⟩ := C73_resolved g pos items b h
  constructor
  · intro p q x y hi
    obtain ⟨v, hv⟩ := hu _ hi p (.inl rfl)
    obtain ⟨w, hw⟩ := hu _ hi q (.inr rfl)
    obtain ⟨it, hit⟩ := last_exists (p := Item.ForceOn pos.length items v w) hi ⟨hv, hw⟩
    cases it with
    | force p' q' x' y' => exact ⟨v, w, (x', y'), hv, hw, (hf v w (x', y')).2 ⟨p', q', hit⟩⟩
    | _ => exact hit.mem.2.elim
  · intro p q c hi
    obtain ⟨v, hv⟩ := hu _ hi p (.inl rfl)
    obtain ⟨w, hw⟩ := hu _ hi q (.inr rfl)
    obtain ⟨it, hit⟩ := last_exists (p := Item.ConstraintOn pos.length items v w) hi ⟨hv, hw⟩
    cases it with
    | constraint p' q' c' => exact ⟨v, w, c', hv, hw, (hc v w c').2 ⟨p', q', hit⟩⟩
    | _ => exact hit.mem.2.elim

omit [IsStrictOrderedRing K] in
/-- **C73.** If the polygons can be stored, the file is read exactly if every label that is used belongs to a vertex; otherwise reading gives an error. -/
theorem C73_undefined (g : Geo K) (pos : List (K × K)) (items : List (Item K)) (b₀ : Boundary K) (h : runOps g (Boundary.new pos) ((polys items).map .polygon) = .ok b₀) :
    ((∃ b, toBounds g pos items = .ok b) ↔ ∀ it ∈ items, ∀ l, it.Uses l → ∃ v, Carries pos.length items l v) ∧
    ((¬∃ b, toBounds g pos items = .ok b) → toBounds g pos items = .error .err) := by
  obtain ⟨⟨b₁, labels⟩, h1⟩ := first_of_run (items := items) [] h
  have h1' : firstPass g items (Boundary.new pos) = .ok (b₁, labels) := h1
  have hF := first_ok h1'
  have he : toBounds g pos items = secondPass labels items b₁ := by rw [toBounds, h1']; rfl
  have ht := second_total labels items b₁
  simp only [hF.labels] at ht
  rw [he]
  by_cases hc : ∀ it ∈ items, ∀ l, it.Uses l → ∃ v, Carries pos.length items l v
  · have ht := ht.1 hc
    exact ⟨⟨fun _ => hc, fun _ => ht⟩, fun hn => absurd ht hn⟩
  · have ht := ht.2 hc
    refine ⟨⟨?_, fun h' => absurd h' hc⟩, fun _ => ht⟩
    rintro ⟨b, hb⟩
    rw [ht] at hb
    cases hb

omit [IsStrictOrderedRing K] in
theorem prepared_polygons {g : Geo K} {pos : List (K × K)} {ps : List (List (K × K))} {b : Boundary K} (hp : ∀ p ∈ ps, 3 ≤ p.length)
    (h : runOps g (Boundary.new pos) (ps.map .polygon) = .ok b) : Prepared g b := by
  refine each_inv (fun _ b => Prepared g b) (.new pos) ?_ h
  intro pre op post b₁ b₂ hops hb hr
  refine .step op hb ?_ hr
  obtain ⟨p, hp', rfl⟩ := List.mem_map.1 (show op ∈ ps.map .polygon by rw [hops]; simp)
  exact hp p hp'

omit [IsStrictOrderedRing K] in
/-- **C73.** Forces and constraints of a boundary that was read join vertices of the boundary: it is one of those for which the meshers and the assemblage are proved
correct (C53 to C60). -/
theorem C73_prepared (g : Geo K) (pos : List (K × K)) (items : List (Item K)) (b : Boundary K) (hp : ∀ vs, Item.polygon vs ∈ items → 3 ≤ vs.length)
    (h : toBounds g pos items = .ok b) : Prepared g b := by
  obtain ⟨⟨b₀, labels⟩, h1, h2⟩ := Res.bind_eq_ok.1 h
  have hF := first_ok h1
  have h0 : Prepared g b₀ := by
    refine prepared_polygons (fun p hp' => ?_) hF.run
    have : ∀ items : List (Item K), p ∈ polys items → ∃ vs, Item.polygon vs ∈ items ∧ p.length = vs.length := by
      intro items hm
      induction items with
      | nil => cases hm
      | cons i is ih =>
        have cont : p ∈ polys is → ∃ vs, Item.polygon vs ∈ i :: is ∧ p.length = vs.length := fun hm => by
          obtain ⟨vs, h1, h2⟩ := ih hm
          exact ⟨vs, by simp [h1], h2⟩
        cases i with
        | polygon vs =>
          rcases List.mem_cons.1 hm with rfl | hm
          · exact ⟨vs, by simp, by simp⟩
          · exact cont hm
        | _ => exact cont hm
    obtain ⟨vs, hv, hl⟩ := this items hp'
    rw [hl]
    exact hp vs hv
  have hin : ∀ l v, resolve labels l = .ok v → v ∈ b₀.vertices := by
    intro l v hr
    have := ((hF.labels l v).1 (resolve_some hr)).lt
    rw [hF.vertices, List.mem_range'_1]
    omega
  refine (each_inv (fun _ b => Prepared g b ∧ b.vertices = b₀.vertices) ⟨h0, rfl⟩ ?_ h2).1
  rintro pre it post b₁ b₂ - ⟨hb, hv⟩ hf
  cases it with
  | polygon vs => obtain rfl := Except.ok.inj hf; exact ⟨hb, hv⟩
  | condition c => obtain rfl := Except.ok.inj hf; exact ⟨.step (.condition c) hb trivial rfl, hv⟩
  | material m => obtain rfl := Except.ok.inj hf; exact ⟨.step (.material m) hb trivial rfl, hv⟩
  | force p q x y =>
    obtain ⟨v₀, h1, hf⟩ := Res.bind_eq_ok.1 hf
    obtain ⟨w₀, h2, hf⟩ := Res.bind_eq_ok.1 hf
    obtain rfl := Except.ok.inj hf
    exact ⟨.step (.force v₀ w₀ (x, y)) hb ⟨by rw [hv]; exact hin p v₀ h1, by rw [hv]; exact hin q w₀ h2⟩ rfl, hv⟩
  | constraint p q c =>
    obtain ⟨v₀, h1, hf⟩ := Res.bind_eq_ok.1 hf
    obtain ⟨w₀, h2, hf⟩ := Res.bind_eq_ok.1 hf
    obtain rfl := Except.ok.inj hf
    exact ⟨.step (.distC v₀ w₀ c) hb ⟨by rw [hv]; exact hin p v₀ h1, by rw [hv]; exact hin q w₀ h2⟩ rfl, hv⟩

/-! ## Examples -/

section example73
open MeshFile (exactText)

/-- C73_resolved, C73_kept: the file example_files/hollow.bbnd gives a boundary with two walls; the labels `a b c d` are the vertices `0 1 2 3`. -/
theorem hollow_bound : ∃ b, readBound plainGeo exactText [] hollow = .ok b ∧ toBounds plainGeo [] hollowItems = .ok b ∧ b.allWalls = .ok [(0, 1), (1, 2), (2, 3), (3, 0), (4, 5), (5, 6), (6, 7), (7, 4)] ∧
    b.forces = [((2, 3), (1000000, 0))] ∧ b.distC = [((0, 1), .xyFixed)] ∧ b.material = some .al6061 ∧ b.condition = some (.planeStress (1 / 5)) := by
  obtain ⟨b, h, h'⟩ := ok_of_check (x := toBounds plainGeo [] hollowItems) (fun b => b.allWalls = .ok [(0, 1), (1, 2), (2, 3), (3, 0), (4, 5), (5, 6), (6, 7), (7, 4)] ∧
    b.forces = [((2, 3), (1000000, 0))] ∧ b.distC = [((0, 1), .xyFixed)] ∧ b.material = some .al6061 ∧ b.condition = some (.planeStress (1 / 5))) (by decide +kernel)
  exact ⟨b, by rw [readBound, hollow_parses]; exact h, h, h'⟩

/-- C73_prepared: its polygons have four vertices. -/
example : ∃ b, readBound plainGeo exactText [] hollow = .ok b ∧ Prepared plainGeo b := by
  obtain ⟨b, h1, h2, -⟩ := hollow_bound
  exact ⟨b, h1, C73_prepared plainGeo [] hollowItems b (by
    intro vs hv
    simp only [hollowItems, List.mem_cons, Item.polygon.injEq, reduceCtorEq, false_or, or_false, List.not_mem_nil] at hv
    rcases hv with rfl | rfl <;> simp) h2⟩

/-- C73_undefined: the same polygons, but the label `e` is not defined; and no polygons at all. -/
example : toBounds plainGeo [] (hollowItems ++ [.force ['d'] ['e'] 1 (0 : ℚ)]) = .error .err ∧ toBounds plainGeo [] [.constraint ['a'] ['b'] (.xFixed : Constraint ℚ)] = .error .err ∧
    ∃ b, runOps plainGeo (Boundary.new []) ((polys (hollowItems ++ [.force ['d'] ['e'] 1 (0 : ℚ)])).map .polygon) = .ok b :=
  ⟨by decide +kernel, by decide +kernel, by
    obtain ⟨b, h, -⟩ := ok_of_check (x := runOps plainGeo (Boundary.new []) ((polys (hollowItems ++ [.force ['d'] ['e'] 1 (0 : ℚ)])).map .polygon)) (fun _ => True) (by decide +kernel)
    exact ⟨b, h⟩⟩

/-- **C73.** A label that is given twice is no error: the force meant for the side of the first polygon silently goes to the second one. -/
theorem C73_twice : ∃ b : Boundary ℚ, readBound plainGeo exactText [] "polygon\n0 0 a\n1 0 b\n0 1\nend\ndistributed_force a b 0 1\npolygon\n5 0 a\n6 0 b\n5 1\nend".toList = .ok b ∧
    b.forces = [((3, 4), (0, 1))] := ok_of_check _ (by decide +kernel)

/-- **C73.** A force between vertices that are not joined by a side is accepted and recorded for a pair that is no side. -/
theorem C73_no_side : ∃ b : Boundary ℚ, readBound plainGeo exactText [] "polygon\n0 0 a\n1 0\n1 1 c\n0 1\nend\ndistributed_force a c 0 1".toList = .ok b ∧
    b.forces = [((0, 2), (0, 1))] ∧ (0, 2) ∉ b.segSet ∧ (2, 0) ∉ b.segSet := ok_of_check _ (by decide +kernel)

/-- A polygon with one vertex is accepted too; it is a wall from the vertex to itself. -/
example : ∃ b : Boundary ℚ, readBound plainGeo exactText [] "polygon\n0 0\nend".toList = .ok b ∧ b.segSet = [(0, 0)] := ok_of_check _ (by decide +kernel)

end example73

end BoundFile
end Bugi
