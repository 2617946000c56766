import Verif.Lemmas.Grammar
import Verif.Props.Decimal

/-! C90: which texts are mesh files, and what they stand for. -/

namespace Bugi
namespace MeshFile
open Parse Assemblage

variable {K : Type}

/-- `rows` are the lines of a text. -/
def Rows (file : Txt) (rows : List Txt) : Prop := rows ≠ [] ∧ (∀ r ∈ rows, '\n' ∉ r) ∧ file = ['\n'].intercalate rows

/-- The lines that are not empty and are not comments. -/
def shown (rows : List Txt) : List Txt := rows.filter fun r => decide (r ≠ [] ∧ r.head? ≠ some '#')

/-- Numbers between slashes. -/
def IsNumbers (T : Text K) (t : Txt) (xs : List K) : Prop := ∃ ts, t = ['/'].intercalate ts ∧ List.Forall₂ (fun s x => IsNumber s ∧ T.rd s = some x) ts xs

/-- One to three coordinates between slashes. -/
def IsCoords [Zero K] (T : Text K) (t : Txt) (p : Point K) : Prop :=
  (∃ x, IsNumbers T t [x] ∧ p = ⟨1, x, 0, 0⟩) ∨ (∃ x y, IsNumbers T t [x, y] ∧ p = ⟨2, x, y, 0⟩) ∨ ∃ x y z, IsNumbers T t [x, y, z] ∧ p = ⟨3, x, y, z⟩

/-- A number that fits in 64 bits. -/
def IsWord (d : Txt) (n : Nat) : Prop := IsNat d n ∧ n < 2 ^ 64

/-- Node numbers between slashes. -/
def IsIndices (t : Txt) (ns : List Nat) : Prop := ∃ ts, t = ['/'].intercalate ts ∧ List.Forall₂ IsWord ts ns

/-- The text of a constraint. -/
def IsConstraint (T : Text K) (t : Txt) (c : Constraint K) : Prop :=
  (t = "x".toList ∧ c = .xFixed) ∨ (t = "y".toList ∧ c = .yFixed) ∨ (t = "xy".toList ∧ c = .xyFixed) ∨
    ∃ w x, t = "angle:".toList ++ w ∧ '\n' ∉ w ∧ '\r' ∉ w ∧ T.rd w = some x ∧ c = .angleFixed x

/-- The text of an entry of the constraints. -/
def IsHold (T : Text K) (t : Txt) (e : Nat × Constraint K) : Prop := ∃ d u, t = d ++ ' ' :: u ∧ IsWord d e.1 ∧ IsConstraint T u e.2

/-- The text of an entry of the forces. -/
def IsForce [Zero K] (T : Text K) (t : Txt) (e : Nat × Point K) : Prop := ∃ d u, t = d ++ ' ' :: u ∧ IsWord d e.1 ∧ IsCoords T u e.2

/-- The text of an entry of the distributed forces. -/
def IsDist [Zero K] (T : Text K) (t : Txt) (e : Nat × Nat × Point K) : Prop := ∃ d d' u, t = d ++ ' ' :: d' ++ ' ' :: u ∧ IsWord d e.1 ∧ IsWord d' e.2.1 ∧ IsCoords T u e.2.2

/-- The text of a condition. -/
def IsCondition (T : Text K) (t : Txt) (c : Condition K) : Prop :=
  (∃ w x, t = "planestrain ".toList ++ w ∧ IsNumber w ∧ T.rd w = some x ∧ c = .planeStrain x) ∨
    (∃ w x, t = "planestress ".toList ++ w ∧ IsNumber w ∧ T.rd w = some x ∧ c = .planeStress x) ∨ (t = "axisymmetric".toList ∧ c = .axisymmetric)

/-- The text of a material. -/
def IsMaterial [Field K] (t : Txt) (m : Material K) : Prop := (t = "AL6061".toList ∧ m = .al6061) ∨ (t = "TEST".toList ∧ m = .test)

/-- What a mesh file says. -/
structure Sheet (K : Type) where
  material : Material K
  condition : Condition K
  nodes : List (Point K)
  elements : List (List Nat)
  constraints : List (Nat × Constraint K)
  forces : List (Nat × Point K)
  dist : List (Nat × Nat × Point K)

/-- A section with its number of entries. -/
def IsSection {α : Type} (name : Txt) (F : Txt → α → Prop) (ls : List Txt) (xs : List α) : Prop :=
  ∃ d m, ls = ['$' :: name, "count ".toList ++ d] ++ m ++ ["$End".toList ++ name] ∧ IsWord d xs.length ∧ List.Forall₂ F m xs

/-- A section whose entries are numbered from zero. -/
def IsNumbered {α : Type} (name : Txt) (F : Txt → α → Prop) (ls : List Txt) (xs : List α) : Prop :=
  ∃ d m, ls = ['$' :: name, "count ".toList ++ d] ++ m ++ ["$End".toList ++ name] ∧ IsWord d xs.length ∧
    List.Forall₂ (fun l e => ∃ d t, IsNat d e.2 ∧ l = d ++ ' ' :: t ∧ F t e.1) m xs.zipIdx

/-- The lines of a mesh file: header and five sections in this order, then anything. -/
def IsSheet [Field K] (T : Text K) (ls : List Txt) (S : Sheet K) : Prop :=
  ∃ v m c l₁ l₂ l₃ l₄ l₅ rest,
    ls = ["$Header".toList, "version ".toList ++ v, "material ".toList ++ m, "condition ".toList ++ c, "$EndHeader".toList] ++ l₁ ++ l₂ ++ l₃ ++ l₄ ++ l₅ ++ rest ∧
    IsNat v 1 ∧ IsMaterial m S.material ∧ IsCondition T c S.condition ∧
    IsNumbered "Nodes".toList (IsCoords T) l₁ S.nodes ∧ IsNumbered "Elements".toList IsIndices l₂ S.elements ∧
    IsSection "Constraints".toList (IsHold T) l₃ S.constraints ∧
    IsSection "Forces".toList (IsForce T) l₄ S.forces ∧
    IsSection "DistForces".toList (IsDist T) l₅ S.dist

/-- The assemblage is what the file says: the nodes in order, the elements with their nodes, the constraints of a node one after the other, the last of the forces
given for a node, the last of the distributed forces given for a segment. -/
structure Stands [Field K] (S : Sheet K) (a : Assemblage K) : Prop where
  material : a.material = S.material
  condition : a.condition = S.condition
  nodes : a.nodes = S.nodes
  elements : List.Forall₂ (fun ns (el : Element K) => ∃ i j k, ns = [i, j, k] ∧ el.ids = (i, j, k) ∧ S.nodes[i]? = some el.points.1 ∧ S.nodes[j]? = some el.points.2.1 ∧
    S.nodes[k]? = some el.points.2.2 ∧ el.material = S.material ∧ el.condition = S.condition) S.elements a.elements
  constraints : a.constraints.length = S.nodes.length
  merged : ∀ i < S.nodes.length, a.constraints[i]? = some (((S.constraints.filter fun e => decide (e.1 = i)).map Prod.snd).foldl Constraint.merge .free)
  held : ∀ e ∈ S.constraints, e.1 < S.nodes.length
  once : (a.conc.map Prod.fst).Nodup
  forces : ∀ n f, (n, f) ∈ a.conc ↔ (S.forces.filter fun e => decide (e.1 = n)).getLast? = some (n, f)
  pushed : ∀ e ∈ S.forces, e.1 < S.nodes.length
  single : (a.lines.map Prod.fst).Nodup
  dist : ∀ n m f, ((n, m), f) ∈ a.lines ↔ (S.dist.filter fun e => decide (e.1 = n ∧ e.2.1 = m)).getLast? = some (n, m, f)
  drawn : ∀ e ∈ S.dist, e.1 < S.nodes.length ∧ e.2.1 < S.nodes.length

/-! ## Lines of the file -/

theorem split_rows {file : Txt} {rows : List Txt} : Rows file rows ↔ split file = rows := by
  constructor
  · rintro ⟨h1, h2, rfl⟩
    induction rows with
    | nil => exact absurd rfl h1
    | cons r rows ih =>
      have hr : ∀ c ∈ r, c ≠ '\n' := fun c hc h => h2 r (by simp) (h ▸ hc)
      cases rows with
      | nil =>
        rw [List.intercalate_singleton]
        exact split_line hr
      | cons s rows =>
        rw [List.intercalate_cons_cons, List.append_assoc, List.singleton_append, split_cons hr, ih (by simp) fun r hr => h2 r (by simp at hr ⊢; tauto)]
  · rintro rfl
    induction file with
    | nil => exact ⟨by simp [split], by simp [split], by simp [split]⟩
    | cons c s ih =>
      obtain ⟨h1, h2, h3⟩ := ih
      rw [split]
      split_ifs with hc
      · subst hc
        refine ⟨by simp, ?_, ?_⟩
        · intro r hr
          rcases List.mem_cons.1 hr with rfl | hr
          · simp
          · exact h2 r hr
        · cases hs : split s with
          | nil => exact absurd hs h1
          | cons r rs =>
            rw [List.intercalate_cons_cons, List.nil_append, List.singleton_append, ← hs, ← h3]
      · cases hs : split s with
        | nil => exact absurd hs h1
        | cons r rs =>
          rw [hs] at h2 h3
          refine ⟨by simp, ?_, ?_⟩
          · intro r' hr
            rcases List.mem_cons.1 hr with rfl | hr
            · intro hm
              rcases List.mem_cons.1 hm with rfl | hm
              · exact hc rfl
              · exact h2 r (by simp) hm
            · exact h2 r' (by simp [hr])
          · cases rs with
            | nil =>
              rw [List.intercalate_singleton] at h3 ⊢
              rw [h3]
            | cons q rs =>
              rw [List.intercalate_cons_cons] at h3 ⊢
              rw [h3]
              rfl

theorem shown_keep (rows : List Txt) : rows.filter keep = shown rows := by
  refine List.filter_congr fun r _ => ?_
  cases r with
  | nil => rfl
  | cons c r => simp [keep, List.isPrefixOf, beq_eq_decide, eq_comm]

theorem clean_rows {file : Txt} {rows : List Txt} (h : Rows file rows) : clean file = after (shown rows) ∧ ∀ l ∈ shown rows, Row l := by
  have h1 := split_rows.1 h
  refine ⟨?_, fun l hl c hc hn => h.2.1 l (List.mem_filter.1 hl).1 (hn ▸ hc)⟩
  rw [clean, h1, shown_keep]
  rfl

/-! ## Lines of the sections -/

theorem number_row {t : Txt} (h : IsNumber t) : Row t := by
  have hd : ∀ {d : Txt}, Digits d → Row d := fun h c hc => by
    rintro rfl
    exact absurd (h _ hc) (by decide)
  have hs : ∀ {s : Txt}, IsSign s → Row s := fun h => by
    rcases h with rfl | rfl | rfl <;> unfold Row <;> decide
  have hone : ∀ {c : Char}, c ≠ '\n' → Row [c] := fun h d hd => by
    obtain rfl := List.mem_singleton.1 hd
    exact h
  rcases h with ⟨sg, m, e, h1, h2, h3, rfl⟩ | h | h
  · refine ((hs h1).append ?_).append ?_
    · cases h2 with
      | int _ h => exact hd h
      | dec _ h h' => exact (hd h).append (Row.append (a := ['.']) (hone (by decide)) (hd h'))
      | frac _ h => exact Row.append (a := ['.']) (hone (by decide)) (hd h)
    · cases h3 with
      | none => intro c hc; simp at hc
      | some hc h4 _ h5 => exact Row.append (a := [_]) (hone (by rcases hc with rfl | rfl <;> decide)) ((hs h4).append (hd h5))
  all_goals
    intro c hc
    rintro rfl
    have := List.mem_map_of_mem (f := Char.toLower) hc
    rw [h] at this
    revert this
    decide

theorem intercalate_flat (c : Char) (t : Txt) (ts : List Txt) : [c].intercalate (t :: ts) = t ++ ts.flatMap (c :: ·) := by
  induction ts generalizing t with
  | nil => simp
  | cons s ts ih => rw [List.intercalate_cons_cons, ih]; simp

theorem flat_row {G : Txt → Prop} (hG : ∀ t, G t → Row t) {ts : List Txt} (h : ∀ t ∈ ts, G t) : Row (ts.flatMap ('/' :: ·)) := by
  intro c hc
  obtain ⟨t, ht, hc⟩ := List.mem_flatMap.1 hc
  rcases List.mem_cons.1 hc with rfl | hc
  · decide
  · exact hG t (h t ht) c hc

theorem forall_left {α β : Type} {R : α → β → Prop} {G : α → Prop} (hR : ∀ a b, R a b → G a) {l : List α} {m : List β} (h : List.Forall₂ R l m) : ∀ a ∈ l, G a := by
  induction h with
  | nil => simp
  | cons h _ ih =>
    intro a ha
    rcases List.mem_cons.1 ha with rfl | ha
    · exact hR _ _ h
    · exact ih a ha

/-- Lists between slashes. -/
theorem slashes {α : Type} {f : Parser α} {G : Txt → α → Prop} (hs : ∀ s x r, f s = .ok (x, r) → ∃ t, s = t ++ r ∧ G t x) (hG : ∀ t x, G t x → Row t ∧ t ≠ [])
    (hc : ∀ t x r, G t x → (∀ d ∈ r.head?, d = '/' ∨ d = '\n') → f (t ++ r) = .ok (x, r)) :
    (∀ s xs r, sepList0 (tag "/".toList) f s = .ok (xs, r) → ∃ ts, s = ['/'].intercalate ts ++ r ∧ Row (['/'].intercalate ts) ∧ List.Forall₂ G ts xs) ∧
    (∀ ts xs s, ts ≠ [] → List.Forall₂ G ts xs → sepList0 (tag "/".toList) f (['/'].intercalate ts ++ '\n' :: s) = .ok (xs, '\n' :: s)) := by
  constructor
  · intro s xs r h
    rw [sepList0] at h
    split at h
    · split at h
      · obtain ⟨rfl, rfl⟩ := Prod.mk.inj (Except.ok.inj h)
        exact ⟨[], by simp, by intro c hc; simp at hc, .nil⟩
      · cases h
    · obtain ⟨t, ts, x, ys, rfl, rfl, h1, h2⟩ := sepList1_sound hs h
      refine ⟨t :: ts, by rw [intercalate_flat]; rfl, ?_, .cons h1 h2⟩
      rw [intercalate_flat]
      exact (hG t x h1).1.append (flat_row (G := Row) (fun _ h => h) (forall_left (fun a b h => (hG a b h).1) h2))
  · intro ts xs s hne h
    cases h with
    | nil => exact absurd rfl hne
    | @cons t x ts xs h1 h2 =>
      have e : ts.flatMap ('/' :: ·) = (ts.zip xs).flatMap fun e => '/' :: e.1 := by
        have : (ts.zip xs).map Prod.fst = ts := List.map_fst_zip (by rw [h2.length_eq])
        conv_lhs => rw [← this]
        rw [List.flatMap_map]
      have e2 : (ts.zip xs).map Prod.snd = xs := List.map_snd_zip (by rw [h2.length_eq])
      rw [intercalate_flat, e]
      refine sepList0_ne ?_
      conv_rhs => rw [← e2]
      refine sepList1_complete (S := fun r => ∀ d ∈ r.head?, d = '/' ∨ d = '\n') (fun r d hd => by simp at hd; exact .inl hd.symm) (fun d hd => by simp at hd; exact .inr hd.symm)
        (.inl fun d hd => by simp at hd; rw [← hd]; decide) (t, x) (ts.zip xs) ?_ (hG t x h1).2
      intro e' he r hr
      rcases List.mem_cons.1 he with rfl | he
      · exact hc _ _ r h1 hr
      · exact hc _ _ r (List.forall₂_iff_zip.1 h2 |>.2 he) hr

theorem ends_slash {p : Char → Bool} {r : Txt} (h : ∀ d ∈ r.head?, d = '/' ∨ d = '\n') (h1 : p '/' = false) (h2 : p '\n' = false) : Ends p r := fun c hc => by
  rcases h c hc with rfl | rfl
  · exact h1
  · exact h2

theorem number_ne {t : Txt} (h : IsNumber t) : t ≠ [] := by
  rintro rfl
  rcases h with ⟨sg, m, e, h1, h2, h3, h⟩ | h | h
  · obtain ⟨c, l, rfl, -⟩ := h2.head
    simp at h
  · simp at h
  · simp at h

theorem coords_both [Zero K] (T : Text K) : (∀ s p r, coords T s = .ok (p, r) → ∃ t, s = t ++ r ∧ Row t ∧ IsCoords T t p) ∧
    ∀ t p s, Row t → IsCoords T t p → coords T (t ++ '\n' :: s) = .ok (p, '\n' :: s) := by
  obtain ⟨hs, hc⟩ := slashes (f := double T.rd) (G := fun s x => IsNumber s ∧ T.rd s = some x)
    (fun s x r h => by
      obtain ⟨t, h1, h2, h3⟩ := double_sound h
      exact ⟨t, h3, h1, h2⟩)
    (fun t x h => ⟨number_row h.1, number_ne h.1⟩)
    (fun t x r h hr => double_complete h.1 h.2 (ends_slash hr (by decide) (by decide)))
  refine ⟨fun s p r h => ?_, fun t p s ht h => ?_⟩
  · obtain ⟨xs, h1, h2⟩ := pmapO_iff.1 h
    obtain ⟨ts, rfl, h3, h4⟩ := hs _ _ _ h1
    refine ⟨_, rfl, h3, ?_⟩
    match xs, h2, h4 with
    | [x], h2, h4 => exact .inl ⟨x, ⟨ts, rfl, h4⟩, (Option.some.inj h2).symm⟩
    | [x, y], h2, h4 => exact .inr (.inl ⟨x, y, ⟨ts, rfl, h4⟩, (Option.some.inj h2).symm⟩)
    | [x, y, z], h2, h4 => exact .inr (.inr ⟨x, y, z, ⟨ts, rfl, h4⟩, (Option.some.inj h2).symm⟩)
    | [], h2, _ => simp [point] at h2
    | _ :: _ :: _ :: _ :: _, h2, _ => simp [point] at h2
  · have key : ∀ xs, xs ≠ [] → IsNumbers T t xs → point xs = some p → coords T (t ++ '\n' :: s) = .ok (p, '\n' :: s) := by
      rintro xs hne ⟨ts, rfl, h4⟩ hp
      refine pmapO_iff.2 ⟨xs, hc ts xs s ?_ h4, hp⟩
      rintro rfl
      cases h4
      exact hne rfl
    rcases h with ⟨x, h, rfl⟩ | ⟨x, y, h, rfl⟩ | ⟨x, y, z, h, rfl⟩
    · exact key _ (by simp) h rfl
    · exact key _ (by simp) h rfl
    · exact key _ (by simp) h rfl

theorem coords_line [Zero K] (T : Text K) : Line (coords T) (IsCoords T) := Line.of (coords_both T).1 (coords_both T).2

theorem numbers_line : Line numbers IsIndices := by
  obtain ⟨hs, hc⟩ := slashes (f := u64) (G := IsWord)
    (fun s x r h => by
      obtain ⟨h1, d, h2, h3, -⟩ := uint_iff.1 h
      exact ⟨d, h3, h2, h1⟩)
    (fun t x h => ⟨isNat_row h.1, h.1.1⟩)
    (fun t x r h hr => uint_iff.2 ⟨h.2, t, h.1, rfl, ends_slash hr (by decide) (by decide)⟩)
  refine Line.of (fun s ns r h => ?_) fun t ns s ht h => ?_
  · obtain ⟨ts, rfl, h3, h4⟩ := hs _ _ _ h
    exact ⟨_, rfl, h3, ts, rfl, h4⟩
  · obtain ⟨ts, rfl, h4⟩ := h
    by_cases hts : ts = []
    · subst hts
      cases h4
      have h1 : u64 ('\n' :: s) = .error .error := by
        rw [u64, uint, many1, show ('\n' :: s).takeWhile Char.isDigit = [] from rfl]
        rfl
      show numbers ('\n' :: s) = _
      rw [numbers, sepList0, sepList1, h1]
      rfl
    · exact hc ts ns s hts h4

theorem word_iff {s r : Txt} {n : Nat} : terminated u64 (tag " ".toList) s = .ok (n, r) ↔ ∃ d, IsWord d n ∧ s = d ++ ' ' :: r := by
  rw [terminated_iff]
  constructor
  · intro h
    obtain ⟨h1, d, h2, h3, -⟩ := uint_iff.1 h
    exact ⟨d, ⟨h2, h1⟩, h3⟩
  · rintro ⟨d, h, rfl⟩
    exact uint_iff.2 ⟨h.2, d, h.1, rfl, ends_cons _ (by decide)⟩

theorem space_row {d t : Txt} {n : Nat} (h : IsWord d n) : Row (d ++ ' ' :: t) ↔ Row t :=
  ⟨fun h => h.right.cons, fun ht => (isNat_row h.1).append (Row.append (a := [' ']) (by unfold Row; decide) ht)⟩

/-- A number, a blank, and more. -/
theorem word_line {α : Type} {f : Parser α} {F : Txt → α → Prop} (hs : ∀ s x r, f s = .ok (x, r) → ∃ t, s = t ++ r ∧ Row t ∧ F t x)
    (hc : ∀ t x s, Row t → F t x → f (t ++ '\n' :: s) = .ok (x, '\n' :: s)) :
    (∀ s x r, both (terminated u64 (tag " ".toList)) f s = .ok (x, r) → ∃ t, s = t ++ r ∧ Row t ∧ ∃ d u, t = d ++ ' ' :: u ∧ IsWord d x.1 ∧ F u x.2) ∧
    ∀ t x s, Row t → (∃ d u, t = d ++ ' ' :: u ∧ IsWord d x.1 ∧ F u x.2) → both (terminated u64 (tag " ".toList)) f (t ++ '\n' :: s) = .ok (x, '\n' :: s) := by
  constructor
  · rintro s ⟨n, x⟩ r h
    obtain ⟨s', h1, h2⟩ := both_iff.1 h
    obtain ⟨d, hd, rfl⟩ := word_iff.1 h1
    obtain ⟨t, rfl, h3, h4⟩ := hs _ _ _ h2
    exact ⟨d ++ ' ' :: t, by simp, (space_row hd).2 h3, d, t, rfl, hd, h4⟩
  · rintro t ⟨n, x⟩ s ht ⟨d, u, rfl, hd, hu⟩
    refine both_iff.2 ⟨u ++ '\n' :: s, word_iff.2 ⟨d, hd, by simp⟩, hc u x s ((space_row hd).1 ht) hu⟩

theorem ofText_iff (T : Text K) {u : Txt} {c : Constraint K} (hu : ∀ d ∈ u, isEol d = false) : Constraint.ofText T u = some c ↔ IsConstraint T u c := by
  rw [Constraint.ofText, IsConstraint]
  have hn : ∀ w : Txt, (∀ d ∈ w, isEol d = false) → '\n' ∉ w ∧ '\r' ∉ w := fun w hw => ⟨fun h => absurd (hw _ h) (by decide), fun h => absurd (hw _ h) (by decide)⟩
  split_ifs with h1 h2 h3 h4
  · subst h1
    constructor
    · intro h
      exact .inl ⟨rfl, (Option.some.inj h).symm⟩
    · rintro (⟨-, rfl⟩ | ⟨h, -⟩ | ⟨h, -⟩ | ⟨w, x, h, -⟩)
      · rfl
      · simp at h
      · simp at h
      · simp at h
  · subst h2
    constructor
    · intro h
      exact .inr (.inl ⟨rfl, (Option.some.inj h).symm⟩)
    · rintro (⟨h, -⟩ | ⟨-, rfl⟩ | ⟨h, -⟩ | ⟨w, x, h, -⟩)
      · simp at h
      · rfl
      · simp at h
      · simp at h
  · subst h3
    constructor
    · intro h
      exact .inr (.inr (.inl ⟨rfl, (Option.some.inj h).symm⟩))
    · rintro (⟨h, -⟩ | ⟨h, -⟩ | ⟨-, rfl⟩ | ⟨w, x, h, -⟩)
      · simp at h
      · simp at h
      · rfl
      · simp at h
  · obtain ⟨w, rfl⟩ := List.isPrefixOf_iff_prefix.1 h4
    have hw := hn w fun d hd => hu d (by simp [hd])
    rw [show ("angle:".toList ++ w).drop 6 = w from rfl, Option.map_eq_some_iff]
    constructor
    · rintro ⟨x, hx, rfl⟩
      exact .inr (.inr (.inr ⟨w, x, rfl, hw.1, hw.2, hx, rfl⟩))
    · rintro (⟨h, -⟩ | ⟨h, -⟩ | ⟨h, -⟩ | ⟨w', x, h, -, -, hx, rfl⟩)
      · simp at h
      · simp at h
      · simp at h
      · obtain rfl := List.append_cancel_left h
        exact ⟨x, hx, rfl⟩
  · constructor
    · intro h
      cases h
    · rintro (⟨h, -⟩ | ⟨h, -⟩ | ⟨h, -⟩ | ⟨w', x, rfl, -⟩)
      · exact absurd h h1
      · exact absurd h h2
      · exact absurd h h3
      · exact absurd (List.isPrefixOf_iff_prefix.2 ⟨w', rfl⟩) h4


theorem eol_row {u : Txt} (h : ∀ d ∈ u, isEol d = false) : Row u := fun c hc => by
  rintro rfl
  exact absurd (h _ hc) (by decide)

theorem constraint_line (T : Text K) : Line (constraint T) (IsHold T) := by
  obtain ⟨hs, hc⟩ := word_line (f := pmapO (Constraint.ofText T) notLineEnding) (F := IsConstraint T)
    (fun s c r h => by
      obtain ⟨u, h1, h2⟩ := pmapO_iff.1 h
      obtain ⟨rfl, h3, -⟩ := notLineEnding_sound h1
      exact ⟨u, rfl, eol_row h3, (ofText_iff T h3).1 h2⟩)
    (fun t c s ht h => by
      have hu : ∀ d ∈ t, isEol d = false := by
        rcases h with ⟨rfl, -⟩ | ⟨rfl, -⟩ | ⟨rfl, -⟩ | ⟨w, x, rfl, h1, h2, -⟩
        · decide
        · decide
        · decide
        · intro d hd
          rcases List.mem_append.1 hd with hd | hd
          · exact (show ∀ d ∈ "angle:".toList, isEol d = false by decide) d hd
          · refine decide_eq_false ?_
            rintro (rfl | rfl)
            · exact h1 hd
            · exact h2 hd
      exact pmapO_iff.2 ⟨t, notLineEnding_complete hu (.inr ⟨s, rfl⟩), (ofText_iff T hu).2 h⟩)
  exact Line.of hs hc

theorem force_line [Zero K] (T : Text K) : Line (force T) (IsForce T) := by
  obtain ⟨hs, hc⟩ := word_line (coords_both T).1 (coords_both T).2
  exact Line.of hs hc

theorem distForce_line [Zero K] (T : Text K) : Line (distForce T) (IsDist T) := by
  obtain ⟨hs, hc⟩ := word_line (coords_both T).1 (coords_both T).2
  obtain ⟨hs, hc⟩ := word_line hs hc
  refine Line.of (fun s x r h => ?_) fun t x s ht h => ?_
  · obtain ⟨t, h1, h2, d, u, rfl, h3, d', u', rfl, h4, h5⟩ := hs _ _ _ h
    exact ⟨_, h1, h2, d, d', u', by simp, h3, h4, h5⟩
  · obtain ⟨d, d', u, rfl, h3, h4, h5⟩ := h
    exact hc _ _ _ ht ⟨d, d' ++ ' ' :: u, by simp, h3, d', u, rfl, h4, h5⟩

theorem version_line : Line (uint 256) fun t n => IsNat t n ∧ n < 256 := by
  refine Line.of (fun s n r h => ?_) fun t n s ht h => uint_iff.2 ⟨h.2, t, h.1, rfl, ends_cons _ (by decide)⟩
  obtain ⟨h1, d, h2, rfl, -⟩ := uint_iff.1 h
  exact ⟨d, rfl, isNat_row h2, h2, h1⟩

theorem alphanumeric_line : Line alphanumeric fun t m => t = m ∧ t ≠ [] ∧ ∀ c ∈ t, c.isAlphanum = true := by
  refine Line.of (fun s n r h => ?_) fun t n s ht h => ?_
  · obtain ⟨h1, rfl, h2, -⟩ := many1_iff.1 h
    refine ⟨n, rfl, fun c hc => ?_, rfl, h1, h2⟩
    rintro rfl
    exact absurd (h2 _ hc) (by decide)
  · obtain ⟨rfl, h1, h2⟩ := h
    exact many1_iff.2 ⟨h1, rfl, h2, ends_cons _ (by decide)⟩

theorem ofText_material [Field K] {t : Txt} {m : Material K} : Material.ofText t = some m ↔ IsMaterial t m := by
  rw [Material.ofText, IsMaterial]
  split_ifs with h1 h2
  · subst h1
    exact ⟨fun h => .inl ⟨rfl, (Option.some.inj h).symm⟩, fun h => h.elim (fun h => h.2 ▸ rfl) fun h => absurd h.1 (by decide)⟩
  · subst h2
    exact ⟨fun h => .inr ⟨rfl, (Option.some.inj h).symm⟩, fun h => h.elim (fun h => absurd h.1 (by decide)) fun h => h.2 ▸ rfl⟩
  · exact ⟨fun h => (nomatch h), fun h => h.elim (fun h => absurd h.1 h1) fun h => absurd h.1 h2⟩

theorem condition_line (T : Text K) : Line (condition T) (IsCondition T) := by
  have pre : ∀ (w : Txt) (g : K → Condition K) (s : Txt) (c : Condition K) (r : Txt), pmap g (preceded (tag w) (double T.rd)) s = .ok (c, r) ↔
      ∃ s' x, s = w ++ s' ∧ double T.rd s' = .ok (x, r) ∧ c = g x := by
    intro w g s c r
    rw [pmap_iff]
    constructor
    · rintro ⟨x, h1, rfl⟩
      obtain ⟨s', h2, h3⟩ := preceded_iff.1 h1
      exact ⟨_, x, h2, h3, rfl⟩
    · rintro ⟨s', x, rfl, h, rfl⟩
      exact ⟨x, preceded_iff.2 ⟨_, rfl, h⟩, rfl⟩
  refine Line.of (fun s c r h => ?_) fun t c s ht h => ?_
  · rcases alt_ok h with h | h
    · obtain ⟨s', x, rfl, h1, rfl⟩ := (pre _ _ _ _ _).1 h
      obtain ⟨w, h2, h3, rfl⟩ := double_sound h1
      exact ⟨"planestrain ".toList ++ w, by simp, Row.append (by unfold Row; decide) (number_row h2), .inl ⟨w, x, rfl, h2, h3, rfl⟩⟩
    rcases alt_ok h with h | h
    · obtain ⟨s', x, rfl, h1, rfl⟩ := (pre _ _ _ _ _).1 h
      obtain ⟨w, h2, h3, rfl⟩ := double_sound h1
      exact ⟨"planestress ".toList ++ w, by simp, Row.append (by unfold Row; decide) (number_row h2), .inr (.inl ⟨w, x, rfl, h2, h3, rfl⟩)⟩
    · obtain ⟨⟨⟩, h1, rfl⟩ := pmap_iff.1 h
      obtain rfl := tag_ok h1
      exact ⟨"axisymmetric".toList, rfl, by unfold Row; decide, .inr (.inr ⟨rfl, rfl⟩)⟩
  · rcases h with ⟨w, x, rfl, h1, h2, rfl⟩ | ⟨w, x, rfl, h1, h2, rfl⟩ | ⟨rfl, rfl⟩
    · exact alt_first ((pre _ _ _ _ _).2 ⟨w ++ '\n' :: s, x, by simp, double_complete h1 h2 (ends_cons _ (by decide)), rfl⟩)
    · refine (alt_second rfl).trans (alt_first ((pre _ _ _ _ _).2 ⟨w ++ '\n' :: s, x, by simp, double_complete h1 h2 (ends_cons _ (by decide)), rfl⟩))
    · rfl

/-! ## The whole file -/

theorem row_lit (t : Txt) (h : (t.all fun c => decide (c ≠ '\n')) = true) : Row t := fun c hc => by simpa using List.all_eq_true.1 h c hc

theorem numbered_block {α : Type} {f : Parser α} {F : Txt → α → Prop} (hf : Line f F) {name : Txt} (hn : Row name) :
    Block (sectionOf name (monotonicList f)) (IsNumbered name F) := by
  intro ls xs r hls
  rw [((Block.indexed hf).section hn) ls xs r hls]
  refine exists_congr fun l₁ => exists_congr fun l₂ => and_congr_right fun _ => and_congr_right fun _ => ?_
  constructor
  · rintro ⟨-, rfl, d, m, rfl, h1, h2, h3⟩
    exact ⟨d, m, by simp, ⟨h1, h2⟩, h3⟩
  · rintro ⟨d, m, rfl, ⟨h1, h2⟩, h3⟩
    exact ⟨_, by simp, d, m, rfl, h1, h2, h3⟩

theorem section_block {α : Type} {f : Parser α} {F : Txt → α → Prop} (hf : Line f F) {name : Txt} (hn : Row name) :
    Block (sectionOf name (freeList f)) (IsSection name F) := by
  intro ls xs r hls
  rw [((Block.free hf).section hn) ls xs r hls]
  refine exists_congr fun l₁ => exists_congr fun l₂ => and_congr_right fun _ => and_congr_right fun _ => ?_
  constructor
  · rintro ⟨-, rfl, d, m, rfl, h1, h2, h3⟩
    exact ⟨d, m, by simp, ⟨h1, h2⟩, h3⟩
  · rintro ⟨d, m, rfl, ⟨h1, h2⟩, h3⟩
    exact ⟨_, by simp, d, m, rfl, h1, h2, h3⟩

theorem material_alnum [Field K] {t : Txt} {m : Material K} (h : IsMaterial t m) : t ≠ [] ∧ ∀ c ∈ t, c.isAlphanum = true := by
  rcases h with ⟨rfl, -⟩ | ⟨rfl, -⟩ <;> exact ⟨by decide, by decide⟩

theorem header_block [Field K] (T : Text K) : Block (header T) fun ls e => ∃ v m c,
    ls = ["$Header".toList, "version ".toList ++ v, "material ".toList ++ m, "condition ".toList ++ c, "$EndHeader".toList] ∧
    IsNat v e.1 ∧ e.1 < 256 ∧ IsMaterial m e.2.1 ∧ IsCondition T c e.2.2 := by
  intro ls e r hls
  have h1 := Block.named version_line (name := "version".toList) (row_lit _ (by decide))
  have h2 := Block.named alphanumeric_line (name := "material".toList) (row_lit _ (by decide))
  have h3 := Block.named (condition_line T) (name := "condition".toList) (row_lit _ (by decide))
  rw [header, (((h1.both (h2.both h3)).pmapO _).section (row_lit _ (by decide))) ls e r hls]
  refine exists_congr fun l₁ => exists_congr fun l₂ => and_congr_right fun _ => and_congr_right fun _ => ?_
  constructor
  · rintro ⟨-, rfl, ⟨v, m', c⟩, ⟨-, -, rfl, ⟨tv, rfl, h4, h5⟩, -, -, rfl, ⟨tm, rfl, h6, h7⟩, tc, rfl, h8⟩, h9⟩
    obtain ⟨m, h10, rfl⟩ := Option.map_eq_some_iff.1 h9
    exact ⟨tv, tm, tc, rfl, h4, h5, ofText_material.1 (h6 ▸ h10), h8⟩
  · rintro ⟨tv, tm, tc, rfl, h4, h5, h6, h8⟩
    refine ⟨["version ".toList ++ tv, "material ".toList ++ tm, "condition ".toList ++ tc], rfl, (e.1, tm, e.2.2), ⟨["version ".toList ++ tv], ["material ".toList ++ tm, "condition ".toList ++ tc], rfl,
      ⟨tv, rfl, h4, h5⟩, ["material ".toList ++ tm], ["condition ".toList ++ tc], rfl, ⟨tm, rfl, rfl, material_alnum h6⟩, tc, rfl, h8⟩, ?_⟩
    rw [ofText_material.2 h6]
    rfl

theorem lift_ok {γ : Type} {r : Except PErr γ} {x : γ} : lift r = .ok x ↔ r = .ok x := by
  unfold lift
  split
  · exact Iff.rfl.trans ⟨fun h => congrArg _ (Except.ok.inj h), fun h => congrArg _ (Except.ok.inj h)⟩
  · constructor <;> intro h <;> cases h
  · constructor <;> intro h <;> cases h

/-- Reading is: finding what the file says, and building it. -/
theorem read_iff [Field K] [LinearOrder K] (T : Text K) {file : Txt} {rows : List Txt} (hr : Rows file rows) {a : Assemblage K} : read T file = .ok a ↔
    ∃ S, IsSheet T (shown rows) S ∧ build S.material S.condition S.nodes S.elements S.constraints S.forces S.dist = .ok a := by
  obtain ⟨hc, hrow⟩ := clean_rows hr
  have b1 := numbered_block (coords_line T) (name := "Nodes".toList) (row_lit _ (by decide))
  have b2 := numbered_block numbers_line (name := "Elements".toList) (row_lit _ (by decide))
  have b3 := section_block (constraint_line T) (name := "Constraints".toList) (row_lit _ (by decide))
  have b4 := section_block (force_line T) (name := "Forces".toList) (row_lit _ (by decide))
  have b5 := section_block (distForce_line T) (name := "DistForces".toList) (row_lit _ (by decide))
  rw [read, hc]
  generalize shown rows = ls at hrow ⊢
  constructor
  · intro h
    obtain ⟨⟨⟨v, m, c⟩, r0⟩, h0, h'⟩ := Res.bind_eq_ok.1 h
    clear h
    have h := h'
    clear h'
    obtain ⟨l0, ls, rfl, rfl, tv, tm, tc, rfl, q1, q2, q3, q4⟩ := (header_block T _ _ _ hrow).1 (lift_ok.1 h0)
    split_ifs at h with hv
    have hv : v = 1 := by simpa using hv
    subst hv
    have hrow := fun l hl => hrow l (List.mem_append_right _ hl)
    obtain ⟨⟨ns, r1⟩, h1, h⟩ := Res.bind_eq_ok.1 h
    obtain ⟨l1, ls, rfl, rfl, q5⟩ := (b1 _ _ _ hrow).1 (lift_ok.1 h1)
    have hrow := fun l hl => hrow l (List.mem_append_right _ hl)
    obtain ⟨⟨es, r2⟩, h2, h⟩ := Res.bind_eq_ok.1 h
    obtain ⟨l2, ls, rfl, rfl, q6⟩ := (b2 _ _ _ hrow).1 (lift_ok.1 h2)
    have hrow := fun l hl => hrow l (List.mem_append_right _ hl)
    obtain ⟨⟨cs, r3⟩, h3, h⟩ := Res.bind_eq_ok.1 h
    obtain ⟨l3, ls, rfl, rfl, q7⟩ := (b3 _ _ _ hrow).1 (lift_ok.1 h3)
    have hrow := fun l hl => hrow l (List.mem_append_right _ hl)
    obtain ⟨⟨fs, r4⟩, h4, h⟩ := Res.bind_eq_ok.1 h
    obtain ⟨l4, ls, rfl, rfl, q8⟩ := (b4 _ _ _ hrow).1 (lift_ok.1 h4)
    have hrow := fun l hl => hrow l (List.mem_append_right _ hl)
    obtain ⟨⟨ds, r5⟩, h5, h⟩ := Res.bind_eq_ok.1 h
    obtain ⟨l5, ls, rfl, rfl, q9⟩ := (b5 _ _ _ hrow).1 (lift_ok.1 h5)
    exact ⟨⟨m, c, ns, es, cs, fs, ds⟩, ⟨tv, tm, tc, l1, l2, l3, l4, l5, ls, by simp, q1, q3, q4, q5, q6, q7, q8, q9⟩, h⟩
  · rintro ⟨S, ⟨tv, tm, tc, l1, l2, l3, l4, l5, rest, rfl, q1, q3, q4, q5, q6, q7, q8, q9⟩, h⟩
    simp only [List.append_assoc] at hrow ⊢
    rw [lift_ok.2 ((header_block T _ (1, S.material, S.condition) _ hrow).2 ⟨_, _, rfl, rfl, tv, tm, tc, rfl, q1, (by decide : 1 < 256), q3, q4⟩), Res.bind_ok]
    simp only [ne_eq, not_true_eq_false, if_false]
    have hrow := fun l hl => hrow l (List.mem_append_right _ hl)
    rw [lift_ok.2 ((b1 _ _ _ hrow).2 ⟨_, _, rfl, rfl, q5⟩), Res.bind_ok]
    have hrow := fun l hl => hrow l (List.mem_append_right _ hl)
    rw [lift_ok.2 ((b2 _ _ _ hrow).2 ⟨_, _, rfl, rfl, q6⟩), Res.bind_ok]
    have hrow := fun l hl => hrow l (List.mem_append_right _ hl)
    rw [lift_ok.2 ((b3 _ _ _ hrow).2 ⟨_, _, rfl, rfl, q7⟩), Res.bind_ok]
    have hrow := fun l hl => hrow l (List.mem_append_right _ hl)
    rw [lift_ok.2 ((b4 _ _ _ hrow).2 ⟨_, _, rfl, rfl, q8⟩), Res.bind_ok]
    have hrow := fun l hl => hrow l (List.mem_append_right _ hl)
    rw [lift_ok.2 ((b5 _ _ _ hrow).2 ⟨_, _, rfl, rfl, q9⟩), Res.bind_ok]
    exact h


/-! ## Building -/

theorem range_get {n i x : Nat} (h : vget (List.range' 0 n) i = .ok x) : x = i ∧ i < n := by
  have := vget_ok_iff.1 h
  obtain ⟨h1, h2⟩ := List.getElem?_eq_some_iff.1 this
  rw [List.getElem_range'] at h2
  simp at h1
  exact ⟨by omega, h1⟩

theorem range_vget {n i : Nat} (h : i < n) : vget (List.range' 0 n) i = .ok i := by
  rw [vget_lt (by simpa using h), List.getElem_range', Nat.zero_add, Nat.one_mul]

theorem collect_range {n : Nat} {ns c : List Nat} (h : each ns [] (fun i l => do
      let x ← vget (List.range' 0 n) i
      .ok (l ++ [x])) = .ok c) : c = ns ∧ ∀ i ∈ ns, i < n := by
  refine each_inv (P := fun pre c => c = pre ∧ ∀ i ∈ pre, i < n) ⟨rfl, by simp⟩ ?_ h
  rintro pre i post s s' - ⟨rfl, h1⟩ hs
  obtain ⟨x, h2, h3⟩ := Res.bind_eq_ok.1 hs
  obtain ⟨rfl, h4⟩ := range_get h2
  refine ⟨(Except.ok.inj h3).symm, fun j hj => ?_⟩
  rcases List.mem_append.1 hj with hj | hj
  · exact h1 j hj
  · rw [List.mem_singleton.1 hj]; exact h4

theorem forall₂_snoc {α β : Type} {R : α → β → Prop} {l : List α} {m : List β} {x : α} {y : β} (h : List.Forall₂ R l m) (hxy : R x y) : List.Forall₂ R (l ++ [x]) (m ++ [y]) :=
  List.rel_append h (.cons hxy .nil)

section

variable [Field K] [LinearOrder K]

theorem addElement_spec {a b : Assemblage K} {ids : Nat × Nat × Nat} (h : a.addElement ids = .ok b) : ∃ el : Element K, b = { a with elements := a.elements ++ [el] } ∧
    el.ids = ids ∧ a.nodes[ids.1]? = some el.points.1 ∧ a.nodes[ids.2.1]? = some el.points.2.1 ∧ a.nodes[ids.2.2]? = some el.points.2.2 ∧ el.material = a.material ∧ el.condition = a.condition := by
  obtain ⟨el, h1, h2⟩ := Res.bind_eq_ok.1 h
  obtain ⟨r, -, h2⟩ := Res.bind_eq_ok.1 h2
  obtain ⟨-, -, h2⟩ := Res.bind_eq_ok.1 h2
  obtain ⟨p, h3, h1⟩ := Res.bind_eq_ok.1 h1
  obtain ⟨q, h4, h1⟩ := Res.bind_eq_ok.1 h1
  obtain ⟨r, h5, h1⟩ := Res.bind_eq_ok.1 h1
  obtain rfl := Except.ok.inj h1
  exact ⟨_, (Except.ok.inj h2).symm, rfl, vget_ok_iff.1 h3, vget_ok_iff.1 h4, vget_ok_iff.1 h5, rfl, rfl⟩

/-- The element that a list of node numbers stands for. -/
def Stood (m : Material K) (c : Condition K) (nodes : List (Point K)) (ns : List Nat) (el : Element K) : Prop :=
  ∃ i j k, ns = [i, j, k] ∧ el.ids = (i, j, k) ∧ nodes[i]? = some el.points.1 ∧ nodes[j]? = some el.points.2.1 ∧
    nodes[k]? = some el.points.2.2 ∧ el.material = m ∧ el.condition = c

theorem addElements_spec {n : Nat} {els : List (List Nat)} {a b : Assemblage K} (h : addElements (List.range' 0 n) els a = .ok b) :
    ∃ l, b = { a with elements := a.elements ++ l } ∧ List.Forall₂ (Stood a.material a.condition a.nodes) els l := by
  refine each_inv (P := fun pre b => ∃ l, b = { a with elements := a.elements ++ l } ∧ List.Forall₂ (Stood a.material a.condition a.nodes) pre l) ⟨[], by simp, .nil⟩ ?_ h
  rintro pre ns post s s' - ⟨l, rfl, h1⟩ hs
  obtain ⟨c, h2, h3⟩ := Res.bind_eq_ok.1 hs
  obtain ⟨rfl, h4⟩ := collect_range h2
  split at h3
  · obtain ⟨el, rfl, h5⟩ := addElement_spec h3
    exact ⟨l ++ [el], by simp, forall₂_snoc h1 ⟨_, _, _, rfl, h5⟩⟩
  · cases h3

omit [LinearOrder K] in
theorem addConstraints_spec {n : Nat} {cs : List (Nat × Constraint K)} {a b : Assemblage K} (ha : a.constraints = List.replicate n .free)
    (h : addConstraints (List.range' 0 n) cs a = .ok b) :
    ∃ l, b = { a with constraints := l } ∧ l.length = n ∧ (∀ i < n, l[i]? = some (((cs.filter fun e => decide (e.1 = i)).map Prod.snd).foldl Constraint.merge .free)) ∧
      ∀ e ∈ cs, e.1 < n := by
  refine each_inv (P := fun cs b => ∃ l, b = { a with constraints := l } ∧ l.length = n ∧
    (∀ i < n, l[i]? = some (((cs.filter fun e => decide (e.1 = i)).map Prod.snd).foldl Constraint.merge .free)) ∧ ∀ e ∈ cs, e.1 < n)
    ⟨List.replicate n .free, by rw [← ha], by simp, fun i hi => by simp [hi], by simp⟩ ?_ h
  rintro pre e post s s' - ⟨l, rfl, h1, h2, h3⟩ hs
  obtain ⟨x, h4, h5⟩ := Res.bind_eq_ok.1 hs
  obtain ⟨rfl, h6⟩ := range_get h4
  rw [addConstraint] at h5
  obtain ⟨old, h7, h5⟩ := Res.bind_eq_ok.1 h5
  obtain ⟨l', h8, h5⟩ := Res.bind_eq_ok.1 h5
  obtain rfl := Except.ok.inj h5
  have h7 := vget_ok_iff.1 h7
  obtain ⟨-, rfl⟩ := vset_ok_iff.1 h8
  refine ⟨_, rfl, by simpa using h1, fun i hi => ?_, fun e' he => ?_⟩
  · rw [List.filter_append, List.map_append, List.foldl_append, List.getElem?_set]
    have := h2 i hi
    split_ifs with hc h9
    · subst hc
      rw [h7] at this
      simp [← Option.some.inj this]
    · exact absurd (by rw [h1]; exact h6) h9
    · simpa [hc] using this
  · rcases List.mem_append.1 he with he | he
    · exact h3 e' he
    · rw [List.mem_singleton.1 he]; exact h6

omit [Field K] [LinearOrder K] in
theorem addForces_spec {n : Nat} {fs : List (Nat × Point K)} {a b : Assemblage K} (ha : a.conc = []) (h : addForces (List.range' 0 n) fs a = .ok b) :
    ∃ l, b = { a with conc := l } ∧ (hkeys l).Nodup ∧ (∀ k, hget l k = ((fs.filter fun e => decide (e.1 = k)).getLast?).map Prod.snd) ∧ ∀ e ∈ fs, e.1 < n := by
  refine each_inv (P := fun fs b => ∃ l, b = { a with conc := l } ∧ (hkeys l).Nodup ∧ (∀ k, hget l k = ((fs.filter fun e => decide (e.1 = k)).getLast?).map Prod.snd) ∧ ∀ e ∈ fs, e.1 < n)
    ⟨[], by rw [← ha], by simp [hkeys], fun i => rfl, by simp⟩ ?_ h
  rintro pre e post s s' - ⟨l, rfl, h1, h2, h3⟩ hs
  obtain ⟨x, h4, h5⟩ := Res.bind_eq_ok.1 hs
  obtain ⟨rfl, h6⟩ := range_get h4
  obtain rfl := Except.ok.inj h5
  refine ⟨_, rfl, hset_nodup h1 _ _, fun k => ?_, fun e' he => ?_⟩
  · rw [hget_hset, List.filter_append]
    split_ifs with hc
    · subst hc
      simp
    · simpa [hc] using h2 k
  · rcases List.mem_append.1 he with he | he
    · exact h3 e' he
    · rw [List.mem_singleton.1 he]; exact h6

omit [Field K] [LinearOrder K] in
theorem addDistForces_spec {n : Nat} {fs : List (Nat × Nat × Point K)} {a b : Assemblage K} (ha : a.lines = []) (h : addDistForces (List.range' 0 n) fs a = .ok b) :
    ∃ l, b = { a with lines := l } ∧ (hkeys l).Nodup ∧ (∀ k, hget l k = ((fs.filter fun e => decide (e.1 = k.1 ∧ e.2.1 = k.2)).getLast?).map fun e => e.2.2) ∧
      ∀ e ∈ fs, e.1 < n ∧ e.2.1 < n := by
  refine each_inv (P := fun fs b => ∃ l, b = { a with lines := l } ∧ (hkeys l).Nodup ∧
      (∀ k, hget l k = ((fs.filter fun e => decide (e.1 = k.1 ∧ e.2.1 = k.2)).getLast?).map fun e => e.2.2) ∧ ∀ e ∈ fs, e.1 < n ∧ e.2.1 < n)
    ⟨[], by rw [← ha], by simp [hkeys], fun i => rfl, by simp⟩ ?_ h
  rintro pre e post s s' - ⟨l, rfl, h1, h2, h3⟩ hs
  obtain ⟨x, h4, h5⟩ := Res.bind_eq_ok.1 hs
  obtain ⟨rfl, h6⟩ := range_get h4
  obtain ⟨y, h7, h5⟩ := Res.bind_eq_ok.1 h5
  obtain ⟨rfl, h8⟩ := range_get h7
  obtain rfl := Except.ok.inj h5
  refine ⟨_, rfl, hset_nodup h1 _ _, fun k => ?_, fun e' he => ?_⟩
  · rw [hget_hset, List.filter_append]
    split_ifs with hc
    · subst hc
      simp
    · have : ¬ (e.1 = k.1 ∧ e.2.1 = k.2) := fun h => hc (Prod.ext h.1 h.2)
      simpa [this] using h2 k
  · rcases List.mem_append.1 he with he | he
    · exact h3 e' he
    · rw [List.mem_singleton.1 he]; exact ⟨h6, h8⟩

theorem build_stands {S : Sheet K} {a : Assemblage K} (h : build S.material S.condition S.nodes S.elements S.constraints S.forces S.dist = .ok a) : Stands S a := by
  rw [build] at h
  simp only [addNodes, Assemblage.new, List.length_nil] at h
  obtain ⟨a1, h1, h⟩ := Res.bind_eq_ok.1 h
  obtain ⟨l1, rfl, p1⟩ := addElements_spec h1
  obtain ⟨a2, h2, h⟩ := Res.bind_eq_ok.1 h
  obtain ⟨l2, rfl, p2, p3, p4⟩ := addConstraints_spec (by rfl) h2
  obtain ⟨a3, h3, h⟩ := Res.bind_eq_ok.1 h
  obtain ⟨l3, rfl, p5, p6, p7⟩ := addForces_spec rfl h3
  obtain ⟨l4, rfl, p8, p9, p10⟩ := addDistForces_spec rfl h
  refine ⟨rfl, rfl, rfl, ?_, p2, p3, p4, p5, fun n f => ?_, p7, p8, fun n m f => ?_, p10⟩
  · rw [List.nil_append] at *
    exact p1
  · rw [← hget_iff_mem p5, p6]
    constructor
    · intro h
      obtain ⟨⟨n', f'⟩, q1, rfl⟩ := Option.map_eq_some_iff.1 h
      have := (List.mem_filter.1 (List.mem_of_getLast? q1)).2
      rw [q1]
      simp at this
      rw [this]
    · intro h
      rw [h]
      rfl
  · rw [← hget_iff_mem p8, p9]
    constructor
    · intro h
      obtain ⟨⟨n', m', f'⟩, q1, rfl⟩ := Option.map_eq_some_iff.1 h
      have := (List.mem_filter.1 (List.mem_of_getLast? q1)).2
      rw [q1]
      simp at this
      rw [this.1, this.2]
    · intro h
      rw [h]
      rfl

/-- C90: a text is read only if its lines are those of a mesh file, and what is read is what they say. -/
theorem C90_grammar (T : Text K) {file : Txt} {rows : List Txt} (hr : Rows file rows) {a : Assemblage K} (h : read T file = .ok a) :
    ∃ S, IsSheet T (shown rows) S ∧ Stands S a := by
  obtain ⟨S, h1, h2⟩ := (read_iff T hr).1 h
  exact ⟨S, h1, build_stands h2⟩

/-- C90: a mesh file whose nodes are in the plane, whose elements have three nodes, and that speaks of no other nodes than those it lists is read. -/
theorem C90_accepts [IsStrictOrderedRing K] (T : Text K) {file : Txt} {rows : List Txt} (hr : Rows file rows) {S : Sheet K} (hS : IsSheet T (shown rows) S)
    (hn : ∀ p ∈ S.nodes, ∃ x y, p = ⟨2, x, y, 0⟩) (he : ∀ ns ∈ S.elements, ns.length = 3 ∧ ∀ i ∈ ns, i < S.nodes.length) (hc : ∀ e ∈ S.constraints, e.1 < S.nodes.length)
    (hf : ∀ e ∈ S.forces, e.1 < S.nodes.length) (hd : ∀ e ∈ S.dist, e.1 < S.nodes.length ∧ e.2.1 < S.nodes.length) : ∃ a, read T file = .ok a ∧ Stands S a := by
  suffices ∃ a, build S.material S.condition S.nodes S.elements S.constraints S.forces S.dist = .ok a by
    obtain ⟨a, h⟩ := this
    exact ⟨a, (read_iff T hr).2 ⟨S, hS, h⟩, build_stands h⟩
  obtain ⟨ds, hds⟩ : ∃ ds : List (Nat × Nat × Nat), S.elements = ds.map fun d => [d.1, d.2.1, d.2.2] := by
    refine ⟨S.elements.map fun ns => (ns.getD 0 0, ns.getD 1 0, ns.getD 2 0), ?_⟩
    rw [List.map_map]
    conv_lhs => rw [← List.map_id S.elements]
    refine List.map_congr_left fun ns hns => ?_
    match ns, (he ns hns).1 with
    | [x, y, z], _ => rfl
  rw [build]
  simp only [addNodes, Assemblage.new, List.length_nil, List.nil_append]
  have h1 := addElements_ok ds (⟨S.nodes, S.condition, S.material, [], List.replicate S.nodes.length .free, [], []⟩ : Assemblage K) hn (fun d hd => by
    have := he [d.1, d.2.1, d.2.2] (by rw [hds]; exact List.mem_map_of_mem hd)
    exact ⟨this.2 _ (by simp), this.2 _ (by simp), this.2 _ (by simp)⟩)
  rw [hds]
  simp only at h1
  rw [h1, Res.bind_ok]
  generalize hl : ([] ++ ds.map (withPoints S.material S.condition S.nodes)) = l
  obtain ⟨a2, h2, l2, rfl, -⟩ := each_ok (xs := S.constraints) (s := (⟨S.nodes, S.condition, S.material, l, List.replicate S.nodes.length .free, [], []⟩ : Assemblage K))
    (f := fun e a => do
      let n ← vget (List.range' 0 S.nodes.length) e.1
      a.addConstraint n e.2)
    (fun _ s => ∃ cs, s = ⟨S.nodes, S.condition, S.material, l, cs, [], []⟩ ∧ cs.length = S.nodes.length) ⟨_, rfl, by simp⟩ (by
      rintro pre e post - hs ⟨cs, rfl, hlen⟩
      have hi := hc e (by rw [hs]; simp)
      refine ⟨⟨S.nodes, S.condition, S.material, l, cs.set e.1 (cs[e.1].merge e.2), [], []⟩, ?_, _, rfl, by simpa using hlen⟩
      rw [range_vget hi, Res.bind_ok, addConstraint, vget_lt (by simpa [hlen] using hi), Res.bind_ok, vset_lt _ (by simpa [hlen] using hi)]
      rfl)
  rw [addConstraints, h2, Res.bind_ok]
  obtain ⟨a3, h3, l3, rfl⟩ := each_ok (xs := S.forces) (s := (⟨S.nodes, S.condition, S.material, l, l2, [], []⟩ : Assemblage K))
    (f := fun e a => do
      let n ← vget (List.range' 0 S.nodes.length) e.1
      .ok (a.addConc n e.2))
    (fun _ s => ∃ cs, s = ⟨S.nodes, S.condition, S.material, l, l2, cs, []⟩) ⟨_, rfl⟩ (by
      rintro pre e post - hs ⟨cs, rfl⟩
      exact ⟨_, by rw [range_vget (hf e (by rw [hs]; simp))]; rfl, _, rfl⟩)
  rw [addForces, h3, Res.bind_ok]
  obtain ⟨a4, h4, -⟩ := each_ok (xs := S.dist) (s := (⟨S.nodes, S.condition, S.material, l, l2, l3, []⟩ : Assemblage K))
    (f := fun e a => do
      let n ← vget (List.range' 0 S.nodes.length) e.1
      let m ← vget (List.range' 0 S.nodes.length) e.2.1
      .ok (a.addLine n m e.2.2))
    (fun _ _ => True) trivial (by
      rintro pre e post s hs -
      obtain ⟨q1, q2⟩ := hd e (by rw [hs]; simp)
      exact ⟨_, by rw [range_vget q1, Res.bind_ok, range_vget q2]; rfl, trivial⟩)
  exact ⟨a4, by rw [addDistForces, h4]⟩

/-- C90: a text is cut into lines in exactly one way. -/
theorem C90_lines (file : Txt) : ∃! rows, Rows file rows := ⟨split file, split_rows.2 rfl, fun _ h => (split_rows.1 h).symm⟩

omit [LinearOrder K] in
theorem sheet_parts (T : Text K) {ls : List Txt} (hrow : ∀ l ∈ ls, Row l) {S : Sheet K} (h : IsSheet T ls S) : ∃ r0 r1 r2 r3 r4 r5,
    header T (after ls) = .ok ((1, S.material, S.condition), r0) ∧ sectionOf "Nodes".toList (monotonicList (coords T)) r0 = .ok (S.nodes, r1) ∧
    sectionOf "Elements".toList (monotonicList numbers) r1 = .ok (S.elements, r2) ∧ sectionOf "Constraints".toList (freeList (constraint T)) r2 = .ok (S.constraints, r3) ∧
    sectionOf "Forces".toList (freeList (force T)) r3 = .ok (S.forces, r4) ∧ sectionOf "DistForces".toList (freeList (distForce T)) r4 = .ok (S.dist, r5) := by
  have b1 := numbered_block (coords_line T) (name := "Nodes".toList) (row_lit _ (by decide))
  have b2 := numbered_block numbers_line (name := "Elements".toList) (row_lit _ (by decide))
  have b3 := section_block (constraint_line T) (name := "Constraints".toList) (row_lit _ (by decide))
  have b4 := section_block (force_line T) (name := "Forces".toList) (row_lit _ (by decide))
  have b5 := section_block (distForce_line T) (name := "DistForces".toList) (row_lit _ (by decide))
  obtain ⟨tv, tm, tc, l1, l2, l3, l4, l5, rest, rfl, q1, q3, q4, q5, q6, q7, q8, q9⟩ := h
  simp only [List.append_assoc] at hrow ⊢
  have h1 := fun l hl => hrow l (List.mem_append_right _ hl)
  have h2 := fun l hl => h1 l (List.mem_append_right _ hl)
  have h3 := fun l hl => h2 l (List.mem_append_right _ hl)
  have h4 := fun l hl => h3 l (List.mem_append_right _ hl)
  have h5 := fun l hl => h4 l (List.mem_append_right _ hl)
  exact ⟨_, _, _, _, _, _, (header_block T _ (1, S.material, S.condition) _ hrow).2 ⟨_, _, rfl, rfl, tv, tm, tc, rfl, q1, (by decide : 1 < 256), q3, q4⟩,
    (b1 _ _ _ h1).2 ⟨_, _, rfl, rfl, q5⟩, (b2 _ _ _ h2).2 ⟨_, _, rfl, rfl, q6⟩, (b3 _ _ _ h3).2 ⟨_, _, rfl, rfl, q7⟩,
    (b4 _ _ _ h4).2 ⟨_, _, rfl, rfl, q8⟩, (b5 _ _ _ h5).2 ⟨_, _, rfl, rfl, q9⟩⟩

omit [LinearOrder K] in
/-- C90: a file says one thing only. -/
theorem C90_unique (T : Text K) {file : Txt} {rows : List Txt} (hr : Rows file rows) {S S' : Sheet K} (h : IsSheet T (shown rows) S) (h' : IsSheet T (shown rows) S') : S = S' := by
  have hrow := (clean_rows hr).2
  obtain ⟨r0, r1, r2, r3, r4, r5, p0, p1, p2, p3, p4, p5⟩ := sheet_parts T hrow h
  obtain ⟨s0, s1, s2, s3, s4, s5, q0, q1, q2, q3, q4, q5⟩ := sheet_parts T hrow h'
  obtain ⟨e0, rfl⟩ := Prod.mk.inj (Except.ok.inj (p0.symm.trans q0))
  obtain ⟨e1, rfl⟩ := Prod.mk.inj (Except.ok.inj (p1.symm.trans q1))
  obtain ⟨e2, rfl⟩ := Prod.mk.inj (Except.ok.inj (p2.symm.trans q2))
  obtain ⟨e3, rfl⟩ := Prod.mk.inj (Except.ok.inj (p3.symm.trans q3))
  obtain ⟨e4, rfl⟩ := Prod.mk.inj (Except.ok.inj (p4.symm.trans q4))
  obtain ⟨e5, rfl⟩ := Prod.mk.inj (Except.ok.inj (p5.symm.trans q5))
  obtain ⟨-, e6⟩ := Prod.mk.inj e0
  obtain ⟨e6, e7⟩ := Prod.mk.inj e6
  obtain ⟨m, c, ns, es, cs, fs, ds⟩ := S
  obtain ⟨m', c', ns', es', cs', fs', ds'⟩ := S'
  simp only at e1 e2 e3 e4 e5 e6 e7
  rw [e1, e2, e3, e4, e5, e6, e7]

end

/-! ## Examples -/

theorem digit_number {c : Char} (h : c.isDigit = true) : IsNumber [c] :=
  .inl ⟨[], [c], [], .inl rfl, .int (by simp) (by intro d hd; rw [List.mem_singleton.1 hd]; exact h), .none, rfl⟩

/-- A triangle, with comments, empty lines, two constraints and two forces for the same node, and text after the end. -/
def note : Txt := ("# triangle\n$Header\nversion 001\nmaterial TEST\ncondition planestress 2\n$EndHeader\n\n$Nodes\ncount 3\n0 0/0\n#1 5/5\n1 1/0\n2 0/1\n$EndNodes\n" ++
  "$Elements\ncount 1\n0 0/1/2\n$EndElements\n$Constraints\ncount 3\n0 x\n1 y\n0 y\n$EndConstraints\n\n$Forces\ncount 2\n2 1/0\n2 0/3\n$EndForces\n" ++
  "$DistForces\ncount 1\n1 2 0/1\n$EndDistForces\nthe end").toList

/-- What the note says. -/
def noteSheet : Sheet ℚ where
  material := .test
  condition := .planeStress 2
  nodes := [⟨2, 0, 0, 0⟩, ⟨2, 1, 0, 0⟩, ⟨2, 0, 1, 0⟩]
  elements := [[0, 1, 2]]
  constraints := [(0, .xFixed), (1, .yFixed), (0, .yFixed)]
  forces := [(2, ⟨2, 1, 0, 0⟩), (2, ⟨2, 0, 3, 0⟩)]
  dist := [(1, 2, ⟨2, 0, 1, 0⟩)]

theorem pair_coords {a b : Char} (ha : a.isDigit = true) (hb : b.isDigit = true) {x y : ℚ} (hx : exactText.rd [a] = some x) (hy : exactText.rd [b] = some y) :
    IsCoords exactText [a, '/', b] ⟨2, x, y, 0⟩ :=
  .inr (.inl ⟨x, y, ⟨[[a], [b]], rfl, .cons ⟨digit_number ha, hx⟩ (.cons ⟨digit_number hb, hy⟩ .nil)⟩, rfl⟩)

theorem digit_word {c : Char} {n : Nat} (h : IsNat [c] n) (hn : n < 2 ^ 64) : IsWord [c] n := ⟨h, hn⟩

theorem note_sheet : IsSheet exactText (shown (split note)) noteSheet := by
  have n0 : IsNat ['0'] 0 := ⟨by decide, by decide, by decide⟩
  have n1 : IsNat ['1'] 1 := ⟨by decide, by decide, by decide⟩
  have n2 : IsNat ['2'] 2 := ⟨by decide, by decide, by decide⟩
  have n3 : IsNat ['3'] 3 := ⟨by decide, by decide, by decide⟩
  have w0 : IsWord ['0'] 0 := ⟨n0, by decide⟩
  have w1 : IsWord ['1'] 1 := ⟨n1, by decide⟩
  have w2 : IsWord ['2'] 2 := ⟨n2, by decide⟩
  have w3 : IsWord ['3'] 3 := ⟨n3, by decide⟩
  have c00 : IsCoords exactText ['0', '/', '0'] ⟨2, 0, 0, 0⟩ := pair_coords (by decide) (by decide) (by decide +kernel) (by decide +kernel)
  have c10 : IsCoords exactText ['1', '/', '0'] ⟨2, 1, 0, 0⟩ := pair_coords (by decide) (by decide) (by decide +kernel) (by decide +kernel)
  have c01 : IsCoords exactText ['0', '/', '1'] ⟨2, 0, 1, 0⟩ := pair_coords (by decide) (by decide) (by decide +kernel) (by decide +kernel)
  have c03 : IsCoords exactText ['0', '/', '3'] ⟨2, 0, 3, 0⟩ := pair_coords (by decide) (by decide) (by decide +kernel) (by decide +kernel)
  refine ⟨"001".toList, "TEST".toList, "planestress 2".toList, ["$Nodes".toList, "count 3".toList, "0 0/0".toList, "1 1/0".toList, "2 0/1".toList, "$EndNodes".toList],
    ["$Elements".toList, "count 1".toList, "0 0/1/2".toList, "$EndElements".toList],
    ["$Constraints".toList, "count 3".toList, "0 x".toList, "1 y".toList, "0 y".toList, "$EndConstraints".toList],
    ["$Forces".toList, "count 2".toList, "2 1/0".toList, "2 0/3".toList, "$EndForces".toList],
    ["$DistForces".toList, "count 1".toList, "1 2 0/1".toList, "$EndDistForces".toList], ["the end".toList], by decide +kernel,
    ⟨by decide, by decide, by decide⟩, .inr ⟨rfl, rfl⟩, .inr (.inl ⟨['2'], 2, rfl, digit_number (by decide), by decide +kernel, rfl⟩), ?_, ?_, ?_, ?_, ?_⟩
  · exact ⟨['3'], ["0 0/0".toList, "1 1/0".toList, "2 0/1".toList], rfl, w3, .cons ⟨_, _, n0, rfl, c00⟩ (.cons ⟨_, _, n1, rfl, c10⟩ (.cons ⟨_, _, n2, rfl, c01⟩ .nil))⟩
  · exact ⟨['1'], ["0 0/1/2".toList], rfl, w1, .cons ⟨_, _, n0, rfl, [['0'], ['1'], ['2']], rfl, .cons w0 (.cons w1 (.cons w2 .nil))⟩ .nil⟩
  · exact ⟨['3'], ["0 x".toList, "1 y".toList, "0 y".toList], rfl, w3, .cons ⟨_, _, rfl, w0, .inl ⟨rfl, rfl⟩⟩ (.cons ⟨_, _, rfl, w1, .inr (.inl ⟨rfl, rfl⟩)⟩
      (.cons ⟨_, _, rfl, w0, .inr (.inl ⟨rfl, rfl⟩)⟩ .nil))⟩
  · exact ⟨['2'], ["2 1/0".toList, "2 0/3".toList], rfl, w2, .cons ⟨_, _, rfl, w2, c10⟩ (.cons ⟨_, _, rfl, w2, c03⟩ .nil)⟩
  · exact ⟨['1'], ["1 2 0/1".toList], rfl, w1, .cons ⟨['1'], ['2'], _, rfl, w1, w2, c01⟩ .nil⟩

/-- The note is read. -/
example : ∃ a, read exactText note = .ok a ∧ Stands noteSheet a :=
  C90_accepts exactText (split_rows.2 rfl) note_sheet (by simp [noteSheet]) (by simp [noteSheet]) (by simp [noteSheet]) (by simp [noteSheet]) (by simp [noteSheet])

/-- Both constraints hold the first node, and the last force acts. -/
example : read exactText note = .ok ⟨[⟨2, 0, 0, 0⟩, ⟨2, 1, 0, 0⟩, ⟨2, 0, 1, 0⟩], .planeStress 2, .test,
    [⟨(0, 1, 2), (⟨2, 0, 0, 0⟩, ⟨2, 1, 0, 0⟩, ⟨2, 0, 1, 0⟩), .test, .planeStress 2⟩], [.xyFixed, .yFixed, .free], [(2, ⟨2, 0, 3, 0⟩)], [((1, 2), ⟨2, 0, 1, 0⟩)]⟩ := by decide +kernel

/-- What the note says is determined. -/
example (S : Sheet ℚ) (h : IsSheet exactText (shown (split note)) S) : S.elements = [[0, 1, 2]] := by rw [C90_unique exactText (split_rows.2 rfl) h note_sheet]; rfl

/-- A point in space. -/
example : IsCoords exactText "1/2/3".toList (⟨3, 1, 2, 3⟩ : Point ℚ) :=
  .inr (.inr ⟨1, 2, 3, ⟨[['1'], ['2'], ['3']], rfl, .cons ⟨digit_number (by decide), by decide +kernel⟩ (.cons ⟨digit_number (by decide), by decide +kernel⟩
    (.cons ⟨digit_number (by decide), by decide +kernel⟩ .nil))⟩, rfl⟩)

end MeshFile
end Bugi
