import Verif.Lemmas.Parse
import Verif.Model.BoundFile
import Verif.Props.Decimal

/-! C72: the grammar of boundary files. -/

namespace Bugi
namespace BoundFile
open Parse

variable {K : Type}

/-- Names: one or more letters and digits. -/
def IsName (t : Txt) : Prop := t ≠ [] ∧ ∀ c ∈ t, c.isAlphanum = true

/-- A text `t` that stands for the number `x`. -/
def IsValue (T : Text K) (t : Txt) (x : K) : Prop := IsNumber t ∧ T.rd t = some x

/-- The line of a vertex: two numbers, and perhaps a label. -/
inductive IsVertex (T : Text K) : Txt → Vert K → Prop
  | plain {s t : Txt} {x y : K} : IsValue T s x → IsValue T t y → IsVertex T (s ++ ' ' :: t) ⟨x, y, none⟩
  | labeled {s t l : Txt} {x y : K} : IsValue T s x → IsValue T t y → IsName l → IsVertex T (s ++ ' ' :: (t ++ ' ' :: l)) ⟨x, y, some l⟩

/-- The texts of items. -/
inductive IsItem [Field K] (T : Text K) : Txt → Item K → Prop
  | polygon {ts : List Txt} {vs : List (Vert K)} : ts ≠ [] → List.Forall₂ (IsVertex T) ts vs →
      IsItem T ("polygon\n".toList ++ List.intercalate ['\n'] ts ++ "\nend".toList) (.polygon vs)
  | strain {t : Txt} {x : K} : IsValue T t x → IsItem T ("condition planestrain ".toList ++ t) (.condition (.planeStrain x))
  | stress {t : Txt} {x : K} : IsValue T t x → IsItem T ("condition planestress ".toList ++ t) (.condition (.planeStress x))
  | axis : IsItem T "condition axisymmetric".toList (.condition .axisymmetric)
  | al : IsItem T "material AL6061".toList (.material .al6061)
  | test : IsItem T "material TEST".toList (.material .test)
  | force {a b s t : Txt} {x y : K} : IsName a → IsName b → IsValue T s x → IsValue T t y →
      IsItem T ("distributed_force ".toList ++ (a ++ ' ' :: (b ++ ' ' :: (s ++ ' ' :: t)))) (.force a b x y)
  | fixed {a b : Txt} {s : Txt} {c : Constraint K} : IsName a → IsName b → (s = "x".toList ∧ c = .xFixed) ∨ (s = "y".toList ∧ c = .yFixed) ∨ (s = "xy".toList ∧ c = .xyFixed) →
      IsItem T ("distributed_constraint ".toList ++ (a ++ ' ' :: (b ++ ' ' :: s))) (.constraint a b c)
  | angle {a b : Txt} {s : Txt} {x : K} : IsName a → IsName b → (∀ c ∈ s, c ≠ '\n' ∧ c ≠ '\r') → T.rd s = some x →
      IsItem T ("distributed_constraint ".toList ++ (a ++ ' ' :: (b ++ ' ' :: ("angle:".toList ++ s)))) (.constraint a b (.angleFixed x))

/-! ## Helpers -/

theorem intercalate_cons (t : Txt) (ts : List Txt) : List.intercalate ['\n'] (t :: ts) = t ++ ts.flatMap ('\n' :: ·) := by
  induction ts generalizing t with
  | nil => simp [List.intercalate]
  | cons u ts ih =>
    have : List.intercalate ['\n'] (t :: u :: ts) = t ++ ('\n' :: List.intercalate ['\n'] (u :: ts)) := by simp [List.intercalate]
    rw [this, ih, List.flatMap_cons, List.cons_append]

/-- The end of the text or of the line. -/
def Eol (r : Txt) : Prop := r = [] ∨ ∃ r', r = '\n' :: r'

theorem Eol.ends {r : Txt} (h : Eol r) {p : Char → Bool} (hp : p '\n' = false) : Ends p r := by
  rcases h with rfl | ⟨r', rfl⟩
  · exact ends_nil _
  · exact ends_cons _ hp

theorem alnum_complete {l r : Txt} (h : IsName l) (hr : Ends Char.isAlphanum r) : alphanumeric (l ++ r) = .ok (l, r) := many1_iff.2 ⟨h.1, rfl, h.2, hr⟩

theorem alnum_sound {s l r : Txt} (h : alphanumeric s = .ok (l, r)) : IsName l ∧ s = l ++ r := by
  obtain ⟨h1, h2, h3, -⟩ := many1_iff.1 h
  exact ⟨⟨h1, h3⟩, h2⟩

theorem value_complete {T : Text K} {t r : Txt} {x : K} (h : IsValue T t x) (hr : Ends more r) : double T.rd (t ++ r) = .ok (x, r) := double_complete h.1 h.2 hr

theorem value_sound {T : Text K} {s r : Txt} {x : K} (h : double T.rd s = .ok (x, r)) : ∃ t, IsValue T t x ∧ s = t ++ r := by
  obtain ⟨t, h1, h2, h3⟩ := double_sound h
  exact ⟨t, ⟨h1, h2⟩, h3⟩

theorem pre_complete {α : Type} {p : Parser α} {t s : Txt} {y : α × Txt} (h : p s = .ok y) : preceded (tag t) p (t ++ s) = .ok y := preceded_iff.2 ⟨s, rfl, h⟩

theorem both_complete {α β : Type} {p : Parser α} {q : Parser β} {s s' r : Txt} {x : α} {y : β} (h1 : p s = .ok (x, s')) (h2 : q s' = .ok (y, r)) :
    both p q s = .ok ((x, y), r) := both_iff.2 ⟨s', h1, h2⟩

/-! ## Vertices -/

theorem vertex_sound {T : Text K} {s r : Txt} {v : Vert K} (h : vertex T s = .ok (v, r)) : ∃ t, s = t ++ r ∧ IsVertex T t v := by
  rcases alt_ok h with k1 | k1
  · obtain ⟨⟨x, y, l⟩, k2, rfl⟩ := pmap_iff.1 k1
    obtain ⟨s1, h1, k3⟩ := both_iff.1 k2
    obtain ⟨s2, h2, k4⟩ := both_iff.1 k3
    obtain ⟨s1', rfl, g2⟩ := preceded_iff.1 h2
    obtain ⟨s2', rfl, k5⟩ := preceded_iff.1 k4
    obtain ⟨t1, v1, rfl⟩ := value_sound h1
    obtain ⟨t2, v2, rfl⟩ := value_sound g2
    obtain ⟨hl, rfl⟩ := alnum_sound k5
    exact ⟨_, by simp, .labeled v1 v2 hl⟩
  · obtain ⟨⟨x, y⟩, k6, rfl⟩ := pmap_iff.1 k1
    obtain ⟨s1, h1, k7⟩ := both_iff.1 k6
    obtain ⟨s1', rfl, k8⟩ := preceded_iff.1 k7
    obtain ⟨t1, v1, rfl⟩ := value_sound h1
    obtain ⟨t2, v2, rfl⟩ := value_sound k8
    exact ⟨_, by simp, .plain v1 v2⟩

theorem vertex_complete {T : Text K} {t r : Txt} {v : Vert K} (h : IsVertex T t v) (hr : Eol r) : vertex T (t ++ r) = .ok (v, r) := by
  cases h with
  | @plain s t x y h1 h2 =>
    have e : (s ++ ' ' :: t) ++ r = s ++ (" ".toList ++ (t ++ r)) := by simp
    have d1 : double T.rd (s ++ (" ".toList ++ (t ++ r))) = .ok (x, " ".toList ++ (t ++ r)) := value_complete h1 (ends_cons _ (by decide))
    have d2 : preceded (tag " ".toList) (double T.rd) (" ".toList ++ (t ++ r)) = .ok (y, r) := pre_complete (value_complete h2 (hr.ends (by decide)))
    have f1 : tag [' '] r = .error .error := tag_fails (by rcases hr with rfl | ⟨r', rfl⟩ <;> simp)
    have f : labeled T (s ++ (" ".toList ++ (t ++ r))) = .error .error := by
      rw [labeled, pmap, both, d1, bind_ok, both, d2, bind_ok, preceded, show tag " ".toList r = .error .error from f1]
      rfl
    rw [e, vertex, alt_second f]
    exact pmap_iff.2 ⟨_, both_complete d1 d2, rfl⟩
  | @labeled s t l x y h1 h2 hl =>
    have e : (s ++ ' ' :: (t ++ ' ' :: l)) ++ r = s ++ (" ".toList ++ (t ++ (" ".toList ++ (l ++ r)))) := by simp
    rw [e]
    exact alt_first (pmap_iff.2 ⟨_, both_complete (value_complete h1 (ends_cons _ (by decide))) (both_complete (pre_complete (value_complete h2 (ends_cons _ (by decide))))
      (pre_complete (alnum_complete hl (hr.ends (by decide))))), rfl⟩)

theorem double_end (T : Text K) (r : Txt) : double T.rd ('e' :: r) = .error .error := by
  have h1 : floatText ('e' :: r) = .error .error := floatText_fails (ends_cons _ (by decide))
  have h2 : ∀ c : Char, ∀ t : Txt, c ≠ 'e' → noCase (c :: t) ('e' :: r) = .error .error := fun c t hc => by
    rw [noCase, if_neg (by simpa using hc)]
  rw [double, numberText, alt_second h1, show "nan".toList = 'n' :: "an".toList from rfl, show "inf".toList = 'i' :: "nf".toList from rfl,
    show "infinity".toList = 'i' :: "nfinity".toList from rfl, alt_second (h2 _ _ (by decide)), alt_second (h2 _ _ (by decide)), h2 _ _ (by decide)]
  rfl

theorem vertex_end (T : Text K) (r : Txt) : vertex T ('e' :: r) = .error .error := by
  have f : labeled T ('e' :: r) = .error .error := by rw [labeled, pmap, both, double_end]; rfl
  rw [vertex, alt_second f, unlabeled, pmap, both, double_end]
  rfl

theorem IsVertex.ne {T : Text K} {t : Txt} {v : Vert K} (h : IsVertex T t v) : t ≠ [] := by cases h <;> simp

/-! ## Items -/

variable [Field K]

omit [Field K] in
theorem fixed_text {T : Text K} {s : Txt} {c : Constraint K} (h : (s = "x".toList ∧ c = .xFixed) ∨ (s = "y".toList ∧ c = .yFixed) ∨ (s = "xy".toList ∧ c = .xyFixed)) :
    Constraint.ofText T s = some c ∧ ∀ d ∈ s, isEol d = false := by
  rcases h with ⟨rfl, rfl⟩ | ⟨rfl, rfl⟩ | ⟨rfl, rfl⟩ <;> exact ⟨rfl, by decide⟩

omit [Field K] in
theorem angle_text {T : Text K} {s : Txt} {x : K} (h : T.rd s = some x) : Constraint.ofText T ("angle:".toList ++ s) = some (.angleFixed x) := by
  have : Constraint.ofText T ("angle:".toList ++ s) = (T.rd s).map .angleFixed := by
    simp [Constraint.ofText]
  rw [this, h]
  rfl

omit [Field K] in
theorem ofText_cases {T : Text K} {s : Txt} {c : Constraint K} (h : Constraint.ofText T s = some c) :
    ((s = "x".toList ∧ c = .xFixed) ∨ (s = "y".toList ∧ c = .yFixed) ∨ (s = "xy".toList ∧ c = .xyFixed)) ∨
      ∃ u x, s = "angle:".toList ++ u ∧ T.rd u = some x ∧ c = .angleFixed x := by
  unfold Constraint.ofText at h
  split_ifs at h with h1 h2 h3 h4
  · exact .inl (.inl ⟨h1, (Option.some.inj h).symm⟩)
  · exact .inl (.inr (.inl ⟨h2, (Option.some.inj h).symm⟩))
  · exact .inl (.inr (.inr ⟨h3, (Option.some.inj h).symm⟩))
  · obtain ⟨x, hx, rfl⟩ := Option.map_eq_some_iff.1 h
    obtain ⟨u, rfl⟩ := List.isPrefixOf_iff_prefix.1 h4
    exact .inr ⟨u, x, rfl, by simpa using hx, rfl⟩

theorem polygon_sound {T : Text K} {s r : Txt} {i : Item K} (h : polygon T s = .ok (i, r)) : ∃ t, s = t ++ r ∧ IsItem T t i := by
  obtain ⟨s', rfl, k1⟩ := delimited_iff.1 h
  obtain ⟨vs, k2, rfl⟩ := pmap_iff.1 k1
  obtain ⟨t, ts, v, ws, rfl, rfl, h1, h2⟩ := sepList1_sound (G := IsVertex T) (fun s x r k2 => vertex_sound k2) (show sepList1 (tag ['\n']) (vertex T) s' = _ from k2)
  refine ⟨_, ?_, .polygon (ts := t :: ts) (by simp) (.cons h1 h2)⟩
  rw [intercalate_cons]
  simp

omit [Field K] in
theorem polygon_complete {T : Text K} {ts : List Txt} {vs : List (Vert K)} (hne : ts ≠ []) (h : List.Forall₂ (IsVertex T) ts vs) (r : Txt) :
    polygon T ("polygon\n".toList ++ List.intercalate ['\n'] ts ++ "\nend".toList ++ r) = .ok (.polygon vs, r) := by
  cases h with
  | nil => exact absurd rfl hne
  | @cons t v ts vs h1 h2 =>
    refine delimited_iff.2 ⟨List.intercalate ['\n'] (t :: ts) ++ ("\nend".toList ++ r), by simp, pmap_iff.2 ⟨_, ?_, rfl⟩⟩
    have hz : ∀ e ∈ (t, v) :: ts.zip vs, IsVertex T e.1 e.2 := by
      intro e he
      rcases List.mem_cons.1 he with rfl | he
      · exact h1
      · exact List.forall₂_iff_zip.1 h2 |>.2 he
    have hlen := h2.length_eq
    have hc := sepList1_complete (c := '\n') (f := vertex T) (S := Eol) (fun r => .inr ⟨r, rfl⟩) (r := "\nend".toList ++ r) (.inr ⟨_, rfl⟩)
      (.inr ⟨"end".toList ++ r, rfl, vertex_end T _⟩) (t, v) (ts.zip vs) (fun e he r hr => vertex_complete (hz e he) hr) h1.ne
    have e1 : (ts.zip vs).flatMap (fun e => '\n' :: e.1) = ts.flatMap ('\n' :: ·) := by
      rw [← List.flatMap_map (f := Prod.fst) (g := fun t => '\n' :: t), List.map_fst_zip (by omega)]
    have e2 : (ts.zip vs).map Prod.snd = vs := List.map_snd_zip (by omega)
    dsimp only at hc
    rw [e1, e2] at hc
    rw [intercalate_cons]
    exact hc

theorem item_sound {T : Text K} {s r : Txt} {i : Item K} (h : item T s = .ok (i, r)) : ∃ t, s = t ++ r ∧ IsItem T t i := by
  rcases alt_ok h with k1 | k1
  · exact polygon_sound k1
  rcases alt_ok k1 with k2 | k2
  · rcases alt_ok k2 with k3 | k3
    · obtain ⟨x, k4, rfl⟩ := pmap_iff.1 k3
      obtain ⟨s', rfl, k5⟩ := preceded_iff.1 k4
      obtain ⟨t, ht, rfl⟩ := value_sound k5
      exact ⟨_, by simp, .strain ht⟩
    rcases alt_ok k3 with k6 | k6
    · obtain ⟨x, k7, rfl⟩ := pmap_iff.1 k6
      obtain ⟨s', rfl, k8⟩ := preceded_iff.1 k7
      obtain ⟨t, ht, rfl⟩ := value_sound k8
      exact ⟨_, by simp, .stress ht⟩
    · obtain ⟨x, k9, rfl⟩ := pmap_iff.1 k6
      exact ⟨_, tag_ok k9, .axis⟩
  rcases alt_ok k2 with k10 | k10
  · obtain ⟨m, k11, hm'⟩ := pmapO_iff.1 k10
    obtain ⟨m', hm, rfl⟩ := Option.map_eq_some_iff.1 hm'
    obtain ⟨s', rfl, k12⟩ := preceded_iff.1 k11
    obtain ⟨-, rfl⟩ := alnum_sound k12
    unfold Material.ofText at hm
    split_ifs at hm with h1 h2
    · obtain rfl := Option.some.inj hm
      subst h1
      exact ⟨_, rfl, .al⟩
    · obtain rfl := Option.some.inj hm
      subst h2
      exact ⟨_, rfl, .test⟩
  rcases alt_ok k10 with k13 | k13
  · obtain ⟨⟨a, b, x, y⟩, k14, rfl⟩ := pmap_iff.1 k13
    obtain ⟨s', rfl, k15⟩ := preceded_iff.1 k14
    obtain ⟨s1, h1, k16⟩ := both_iff.1 k15
    obtain ⟨s2, h2, k17⟩ := both_iff.1 k16
    obtain ⟨s3, h3, k18⟩ := both_iff.1 k17
    obtain ⟨s1', rfl, g2⟩ := preceded_iff.1 h2
    obtain ⟨s2', rfl, g3⟩ := preceded_iff.1 h3
    obtain ⟨s3', rfl, k19⟩ := preceded_iff.1 k18
    obtain ⟨n1, rfl⟩ := alnum_sound h1
    obtain ⟨n2, rfl⟩ := alnum_sound g2
    obtain ⟨t3, n3, rfl⟩ := value_sound g3
    obtain ⟨t4, n4, rfl⟩ := value_sound k19
    exact ⟨_, by simp, .force n1 n2 n3 n4⟩
  · obtain ⟨⟨a, b, u⟩, k20, hu⟩ := pmapO_iff.1 k13
    obtain ⟨c, hc, rfl⟩ := Option.map_eq_some_iff.1 hu
    obtain ⟨s', rfl, k21⟩ := preceded_iff.1 k20
    obtain ⟨s1, h1, k22⟩ := both_iff.1 k21
    obtain ⟨s2, h2, k23⟩ := both_iff.1 k22
    obtain ⟨s1', rfl, g2⟩ := preceded_iff.1 h2
    obtain ⟨s2', rfl, k24⟩ := preceded_iff.1 k23
    obtain ⟨n1, rfl⟩ := alnum_sound h1
    obtain ⟨n2, rfl⟩ := alnum_sound g2
    obtain ⟨rfl, hn, -⟩ := notLineEnding_sound k24
    dsimp only at hc
    rcases ofText_cases hc with k24 | ⟨v, x, rfl, hx, rfl⟩
    · exact ⟨_, by simp, .fixed n1 n2 k24⟩
    · refine ⟨_, by simp, .angle n1 n2 (fun d hd => ?_) hx⟩
      have := hn d (List.mem_append.2 (.inr hd))
      simpa [isEol] using this

omit [Field K] in
/-- The alternatives of an item are told apart by their first letters. -/
theorem miss {t : Txt} {s : Txt} (h : tag t s = .error .error) {α : Type} (p : Parser α) : preceded (tag t) p s = .error .error := by
  rw [preceded, h]; rfl

omit [Field K] in
theorem no_polygon {T : Text K} {c : Char} {s : Txt} (h : c ≠ 'p') : polygon T (c :: s) = .error .error :=
  miss (show tag ('p' :: "olygon\n".toList) _ = _ from tag_fails (by simpa using h)) _

omit [Field K] in
theorem no_condition {T : Text K} {c : Char} {s : Txt} (h : c ≠ 'c') : condition T (c :: s) = .error .error := by
  have f : ∀ t : Txt, tag ('c' :: t) (c :: s) = .error .error := fun t => tag_fails (by simpa using h)
  rw [condition, alt_second (by rw [pmap]; exact congrArg (· >>= _) (miss (f _) _)), alt_second (by rw [pmap]; exact congrArg (· >>= _) (miss (f _) _)), pmap]
  exact congrArg (· >>= _) (f _)

theorem no_material {c : Char} {s : Txt} (h : c ≠ 'm') : (material : Parser (Item K)) (c :: s) = .error .error :=
  congrArg (· >>= _) (miss (show tag ('m' :: "aterial ".toList) _ = _ from tag_fails (by simpa using h)) _)

theorem item_condition {T : Text K} {s : Txt} : item T ('c' :: s) = alt (condition T) (alt material (alt (force T) (constraint T))) ('c' :: s) := by
  rw [item, alt_second (no_polygon (by decide))]

theorem item_material {T : Text K} {s : Txt} : item T ('m' :: s) = alt material (alt (force T) (constraint T)) ('m' :: s) := by
  rw [item, alt_second (no_polygon (by decide)), alt_second (no_condition (by decide))]

theorem item_force {T : Text K} {s : Txt} : item T ('d' :: s) = alt (force T) (constraint T) ('d' :: s) := by
  rw [item, alt_second (no_polygon (by decide)), alt_second (no_condition (by decide)), alt_second (no_material (by decide))]

theorem item_constraint {T : Text K} {s : Txt} : item T ("distributed_constraint ".toList ++ s) = constraint T ("distributed_constraint ".toList ++ s) := by
  have f : force T ("distributed_constraint ".toList ++ s) = .error .error := by
    refine congrArg (· >>= _) (miss ?_ _)
    simp [tag]
  rw [show "distributed_constraint ".toList ++ s = 'd' :: ("istributed_constraint ".toList ++ s) from rfl] at f ⊢
  rw [item_force, alt_second f]

theorem constraint_complete {T : Text K} {a b s r : Txt} {c : Constraint K} (ha : IsName a) (hb : IsName b) (hs : ∀ d ∈ s, isEol d = false)
    (hc : Constraint.ofText T s = some c) (hr : Eol r) :
    item T ("distributed_constraint ".toList ++ (a ++ ' ' :: (b ++ ' ' :: s)) ++ r) = .ok (.constraint a b c, r) := by
  have e : "distributed_constraint ".toList ++ (a ++ ' ' :: (b ++ ' ' :: s)) ++ r = "distributed_constraint ".toList ++ (a ++ (" ".toList ++ (b ++ (" ".toList ++ (s ++ r))))) := by
    simp
  rw [e, item_constraint]
  exact pmapO_iff.2 ⟨(a, b, s), pre_complete (both_complete (alnum_complete ha (ends_cons _ (by decide))) (both_complete (pre_complete (alnum_complete hb (ends_cons _ (by decide))))
    (pre_complete (notLineEnding_complete hs hr)))), by dsimp only; rw [hc]; rfl⟩

theorem item_complete {T : Text K} {t r : Txt} {i : Item K} (h : IsItem T t i) (hr : Eol r) : item T (t ++ r) = .ok (i, r) := by
  cases h with
  | polygon hne h => exact alt_first (polygon_complete hne h r)
  | @strain t x h =>
    rw [List.append_assoc, show ∀ s, "condition planestrain ".toList ++ s = 'c' :: ("ondition planestrain ".toList ++ s) from fun _ => rfl, item_condition]
    exact alt_first (alt_first (pmap_iff.2 ⟨x, pre_complete (t := "condition planestrain ".toList) (value_complete h (hr.ends (by decide))), rfl⟩))
  | @stress t x h =>
    have f : preceded (tag "condition planestrain ".toList) (double T.rd) ("condition planestress ".toList ++ (t ++ r)) = .error .error := miss (by simp [tag]) _
    rw [List.append_assoc]
    rw [show ∀ s, "condition planestress ".toList ++ s = 'c' :: ("ondition planestress ".toList ++ s) from fun _ => rfl] at f ⊢
    rw [item_condition]
    refine alt_first ?_
    rw [condition, alt_second (congrArg (· >>= _) f)]
    exact alt_first (pmap_iff.2 ⟨x, pre_complete (t := "condition planestress ".toList) (value_complete h (hr.ends (by decide))), rfl⟩)
  | axis =>
    have f1 : preceded (tag "condition planestrain ".toList) (double T.rd) ("condition axisymmetric".toList ++ r) = .error .error := miss (by simp [tag]) _
    have f2 : preceded (tag "condition planestress ".toList) (double T.rd) ("condition axisymmetric".toList ++ r) = .error .error := miss (by simp [tag]) _
    have f3 : tag "condition axisymmetric".toList ("condition axisymmetric".toList ++ r) = .ok ((), r) := tag_append _ _
    rw [show ∀ s, "condition axisymmetric".toList ++ s = 'c' :: ("ondition axisymmetric".toList ++ s) from fun _ => rfl] at f1 f2 f3 ⊢
    rw [item_condition]
    refine alt_first ?_
    rw [condition, alt_second (congrArg (· >>= _) f1), alt_second (congrArg (· >>= _) f2)]
    exact pmap_iff.2 ⟨(), f3, rfl⟩
  | al =>
    have h : (material : Parser (Item K)) ("material ".toList ++ ("AL6061".toList ++ r)) = .ok (.material .al6061, r) :=
      pmapO_iff.2 ⟨"AL6061".toList, pre_complete (alnum_complete ⟨by decide, by decide⟩ (hr.ends (by decide))), rfl⟩
    exact item_material.trans (alt_first h)
  | test =>
    have h : (material : Parser (Item K)) ("material ".toList ++ ("TEST".toList ++ r)) = .ok (.material .test, r) :=
      pmapO_iff.2 ⟨"TEST".toList, pre_complete (alnum_complete ⟨by decide, by decide⟩ (hr.ends (by decide))), rfl⟩
    exact item_material.trans (alt_first h)
  | @force a b s t x y ha hb hs ht =>
    have e : "distributed_force ".toList ++ (a ++ ' ' :: (b ++ ' ' :: (s ++ ' ' :: t))) ++ r =
        "distributed_force ".toList ++ (a ++ (" ".toList ++ (b ++ (" ".toList ++ (s ++ (" ".toList ++ (t ++ r))))))) := by simp
    rw [e]
    refine item_force.trans (alt_first (pmap_iff.2 ⟨(a, b, x, y), ?_, rfl⟩))
    exact pre_complete (t := "distributed_force ".toList) (both_complete (alnum_complete ha (ends_cons _ (by decide))) (both_complete (pre_complete (alnum_complete hb (ends_cons _ (by decide))))
      (both_complete (pre_complete (value_complete hs (ends_cons _ (by decide)))) (pre_complete (value_complete ht (hr.ends (by decide)))))))
  | fixed ha hb h =>
    obtain ⟨h1, h2⟩ := fixed_text (T := T) h
    exact constraint_complete ha hb h2 h1 hr
  | @angle a b s x ha hb hs hx =>
    refine constraint_complete ha hb (fun d hd => ?_) (angle_text hx) hr
    rcases List.mem_append.1 hd with hd | hd
    · exact (by decide : ∀ d ∈ "angle:".toList, isEol d = false) d hd
    · have := hs d hd
      simp [isEol, this]

theorem item_nil (T : Text K) : item T [] = .error .error := rfl

theorem IsItem.ne {T : Text K} {t : Txt} {i : Item K} (h : IsItem T t i) : t ≠ [] := by
  rintro rfl
  have := item_complete (r := []) h (.inl rfl)
  rw [List.append_nil, item_nil] at this
  cases this

/-- The items of a text that ends with `r`. -/
theorem items_complete {T : Text K} {ts : List Txt} {is : List (Item K)} (hne : ts ≠ []) (h : List.Forall₂ (IsItem T) ts is) {r : Txt} (hr : r = [] ∨ r = ['\n']) :
    sepList0 (tag ['\n']) (item T) (List.intercalate ['\n'] ts ++ r) = .ok (is, r) := by
  cases h with
  | nil => exact absurd rfl hne
  | @cons t v ts vs h1 h2 =>
    have hz : ∀ e ∈ (t, v) :: ts.zip vs, IsItem T e.1 e.2 := by
      intro e he
      rcases List.mem_cons.1 he with rfl | he
      · exact h1
      · exact List.forall₂_iff_zip.1 h2 |>.2 he
    have hlen := h2.length_eq
    have hc := sepList1_complete (c := '\n') (f := item T) (S := Eol) (fun r => .inr ⟨r, rfl⟩) (r := r) (by rcases hr with rfl | rfl <;> simp [Eol])
      (by rcases hr with rfl | rfl
          · exact .inl (by simp)
          · exact .inr ⟨[], rfl, item_nil T⟩) (t, v) (ts.zip vs) (fun e he r hr => item_complete (hz e he) hr) h1.ne
    have e1 : (ts.zip vs).flatMap (fun e => '\n' :: e.1) = ts.flatMap ('\n' :: ·) := by
      rw [← List.flatMap_map (f := Prod.fst) (g := fun t => '\n' :: t), List.map_fst_zip (by omega)]
    have e2 : (ts.zip vs).map Prod.snd = vs := List.map_snd_zip (by omega)
    dsimp only at hc
    rw [e1, e2] at hc
    rw [intercalate_cons]
    exact sepList0_ne hc

theorem parse_sound {T : Text K} {s : Txt} {is : List (Item K)} (h : parseFile T s = .ok is) : ∃ ts, s = List.intercalate ['\n'] ts ∧ List.Forall₂ (IsItem T) ts is := by
  unfold parseFile at h
  obtain ⟨⟨xs, r⟩, h1, h⟩ := Res.bind_eq_ok.1 h
  dsimp only at h
  split_ifs at h with hr
  obtain rfl := Except.ok.inj h
  obtain rfl : r = [] := not_not.1 hr
  have h2 : sepList0 (tag ['\n']) (item T) s = .ok (xs, []) := by
    change lift (sepList0 (tag ['\n']) (item T) s) = _ at h1
    revert h1
    unfold lift
    split
    · rename_i x hx
      intro h
      rw [hx, Except.ok.inj h]
    · intro h; cases h
    · intro h; cases h
  unfold sepList0 at h2
  split at h2
  · split at h2
    · obtain ⟨rfl, rfl⟩ := Prod.mk.inj (Except.ok.inj h2)
      exact ⟨[], rfl, .nil⟩
    · cases h2
  · obtain ⟨t, ts, v, ws, rfl, rfl, h3, h4⟩ := sepList1_sound (G := IsItem T) (fun s x r h => item_sound h) h2
    exact ⟨t :: ts, by rw [intercalate_cons, List.append_nil], .cons h3 h4⟩

/-- **C72.** A boundary file is accepted exactly if it is a list of items with newlines between them, and the result is these items. -/
theorem C72_grammar (T : Text K) (s : Txt) (is : List (Item K)) :
    parseFile T s = .ok is ↔ ∃ ts, s = List.intercalate ['\n'] ts ∧ List.Forall₂ (IsItem T) ts is := by
  refine ⟨parse_sound, ?_⟩
  rintro ⟨ts, rfl, h⟩
  cases ts with
  | nil => cases h; rfl
  | cons t ts =>
    have := items_complete (r := []) (by simp) h (.inl rfl)
    rw [List.append_nil] at this
    rw [parseFile]
    change lift (sepList0 (tag ['\n']) (item T) _) >>= _ = _
    rw [this]
    rfl

/-- **C72.** A newline at the end of a file is not harmless: an accepted file with a newline added is rejected. -/
theorem C72_newline (T : Text K) {s : Txt} {is : List (Item K)} (hs : s ≠ []) (h : parseFile T s = .ok is) : parseFile T (s ++ ['\n']) = .error .err := by
  obtain ⟨ts, rfl, h'⟩ := parse_sound h
  cases ts with
  | nil => exact absurd rfl hs
  | cons t ts =>
    rw [parseFile]
    change lift (sepList0 (tag ['\n']) (item T) _) >>= _ = _
    rw [items_complete (by simp) h' (.inr rfl)]
    rfl

/-! ## Characters -/

omit [Field K] in
theorem rel_of_mem {α β : Type} {R : α → β → Prop} {as : List α} {bs : List β} (h : List.Forall₂ R as bs) {a : α} (ha : a ∈ as) : ∃ b ∈ bs, R a b := by
  induction h with
  | nil => cases ha
  | @cons a' b as bs h _ ih =>
    rcases List.mem_cons.1 ha with rfl | ha
    · exact ⟨b, by simp, h⟩
    · obtain ⟨c, hc, hr⟩ := ih ha
      exact ⟨c, by simp [hc], hr⟩

theorem digit_plain {c : Char} (h : c.isDigit = true) : c ≠ '\n' ∧ c ≠ '\r' := by
  constructor <;> rintro rfl <;> exact absurd h (by decide)

theorem alnum_plain {c : Char} (h : c.isAlphanum = true) : c ≠ '\n' ∧ c ≠ '\r' := by
  constructor <;> rintro rfl <;> exact absurd h (by decide)

theorem IsNumber.plain {t : Txt} (h : IsNumber t) : ∀ c ∈ t, c ≠ '\n' ∧ c ≠ '\r' := by
  have hs : ∀ sg, IsSign sg → ∀ c ∈ sg, c ≠ '\n' ∧ c ≠ '\r' := by
    rintro sg (rfl | rfl | rfl) <;> decide
  have low : ∀ w : Txt, (∀ d ∈ w, d ≠ '\n' ∧ d ≠ '\r') → t.map Char.toLower = w → ∀ c ∈ t, c ≠ '\n' ∧ c ≠ '\r' := by
    rintro w hw rfl c hc
    have := hw _ (List.mem_map_of_mem hc)
    constructor <;> rintro rfl <;> exact absurd this (by decide)
  rcases h with ⟨sg, m, e, h1, h2, h3, rfl⟩ | h | h
  · intro c hc
    rcases List.mem_append.1 hc with hc | hc
    · rcases List.mem_append.1 hc with hc | hc
      · exact hs sg h1 c hc
      · cases h2 with
        | int _ h => exact digit_plain (h c hc)
        | dec _ ha hb =>
          rcases List.mem_append.1 hc with hc | hc
          · exact digit_plain (ha c hc)
          · rcases List.mem_cons.1 hc with rfl | hc
            · decide
            · exact digit_plain (hb c hc)
        | frac _ hb =>
          rcases List.mem_cons.1 hc with rfl | hc
          · decide
          · exact digit_plain (hb c hc)
    · cases h3 with
      | none => cases hc
      | some h1 h2 _ h4 =>
        rcases List.mem_cons.1 hc with rfl | hc
        · rcases h1 with rfl | rfl <;> decide
        · rcases List.mem_append.1 hc with hc | hc
          · exact hs _ h2 c hc
          · exact digit_plain (h4 c hc)
  · exact low _ (by decide) h
  · exact low _ (by decide) h

/-- No item contains the character `\r`, and none ends in a newline. -/
def Good (t : Txt) : Prop := ('\r' ∉ t) ∧ ∀ c ∈ t.getLast?, c ≠ '\n'

theorem good_of_plain {t : Txt} (h : ∀ c ∈ t, c ≠ '\n' ∧ c ≠ '\r') : Good t :=
  ⟨fun hc => (h _ hc).2 rfl, fun c hc => (h c (List.mem_of_getLast? hc)).1⟩

theorem plain_append {s t : Txt} (hs : ∀ c ∈ s, c ≠ '\n' ∧ c ≠ '\r') (ht : ∀ c ∈ t, c ≠ '\n' ∧ c ≠ '\r') : ∀ c ∈ s ++ t, c ≠ '\n' ∧ c ≠ '\r' := by
  intro c hc
  rcases List.mem_append.1 hc with hc | hc
  · exact hs c hc
  · exact ht c hc

theorem plain_blank {t : Txt} (ht : ∀ c ∈ t, c ≠ '\n' ∧ c ≠ '\r') : ∀ c ∈ ' ' :: t, c ≠ '\n' ∧ c ≠ '\r' := plain_append (s := " ".toList) (by decide) ht

theorem IsName.plain {t : Txt} (h : IsName t) : ∀ c ∈ t, c ≠ '\n' ∧ c ≠ '\r' := fun c hc => alnum_plain (h.2 c hc)

omit [Field K] in
theorem IsVertex.plainText {T : Text K} {t : Txt} {v : Vert K} (h : IsVertex T t v) : ∀ c ∈ t, c ≠ '\n' ∧ c ≠ '\r' := by
  cases h with
  | plain h1 h2 => exact plain_append (IsNumber.plain h1.1) (plain_blank (IsNumber.plain h2.1))
  | labeled h1 h2 hl => exact plain_append (IsNumber.plain h1.1) (plain_blank (plain_append (IsNumber.plain h2.1) (plain_blank hl.plain)))

theorem mem_intercalate {c : Char} {ts : List Txt} (h : c ∈ List.intercalate ['\n'] ts) : c = '\n' ∨ ∃ t ∈ ts, c ∈ t := by
  cases ts with
  | nil => simp [List.intercalate] at h
  | cons t ts =>
    rw [intercalate_cons, List.mem_append, List.mem_flatMap] at h
    rcases h with h | ⟨u, hu, h⟩
    · exact .inr ⟨t, by simp, h⟩
    · rcases List.mem_cons.1 h with h | h
      · exact .inl h
      · exact .inr ⟨u, by simp [hu], h⟩

theorem IsItem.good {T : Text K} {t : Txt} {i : Item K} (h : IsItem T t i) : Good t := by
  have pre : ∀ (p : Txt) {t : Txt}, (∀ c ∈ p, c ≠ '\n' ∧ c ≠ '\r') → (∀ c ∈ t, c ≠ '\n' ∧ c ≠ '\r') → Good (p ++ t) := fun p t hp ht => good_of_plain (plain_append hp ht)
  cases h with
  | @polygon ts vs _ h =>
    constructor
    · intro hc
      rcases List.mem_append.1 hc with hc | hc
      · rcases List.mem_append.1 hc with hc | hc
        · revert hc; decide
        · rcases mem_intercalate hc with hc | ⟨t, ht, hc⟩
          · revert hc; decide
          · obtain ⟨v, -, hv⟩ := rel_of_mem h ht
            exact (hv.plainText _ hc).2 rfl
      · revert hc; decide
    · intro c hc
      rw [List.getLast?_append] at hc
      obtain rfl : 'd' = c := by simpa using hc
      decide
  | strain h => exact pre _ (by decide) (IsNumber.plain h.1)
  | stress h => exact pre _ (by decide) (IsNumber.plain h.1)
  | axis => exact good_of_plain (by decide)
  | al => exact good_of_plain (by decide)
  | test => exact good_of_plain (by decide)
  | force ha hb hs ht => exact pre _ (by decide) (plain_append ha.plain (plain_blank (plain_append hb.plain (plain_blank (plain_append (IsNumber.plain hs.1) (plain_blank (IsNumber.plain ht.1)))))))
  | fixed ha hb h =>
    refine pre _ (by decide) (plain_append ha.plain (plain_blank (plain_append hb.plain (plain_blank ?_))))
    rcases h with ⟨rfl, -⟩ | ⟨rfl, -⟩ | ⟨rfl, -⟩ <;> decide
  | angle ha hb hs _ => exact pre _ (by decide) (plain_append ha.plain (plain_blank (plain_append hb.plain (plain_blank (plain_append (s := "angle:".toList) (by decide) hs)))))

/-- **C72.** No file that ends in a newline is accepted. -/
theorem C72_trailing (T : Text K) (s : Txt) (is : List (Item K)) : parseFile T (s ++ ['\n']) ≠ .ok is := by
  intro h
  obtain ⟨ts, hs, h⟩ := parse_sound h
  rcases List.eq_nil_or_concat ts with rfl | ⟨ts', t, rfl⟩
  · simp [List.intercalate] at hs
  · obtain ⟨i, -, hi⟩ := rel_of_mem h (show t ∈ ts'.concat t by simp)
    have hne := hi.ne
    have hl : (List.intercalate ['\n'] (ts'.concat t)).getLast? = t.getLast? := by
      obtain ⟨c, hc⟩ : ∃ c, t.getLast? = some c := ⟨_, List.getLast?_eq_some_getLast hne⟩
      cases ts' with
      | nil => simp [List.intercalate]
      | cons u us =>
        rw [List.concat_eq_append, List.cons_append, intercalate_cons, List.flatMap_append, ← List.append_assoc, List.getLast?_append]
        have : (['\n'] ++ t).getLast? = some c := by rw [List.getLast?_append, hc]; rfl
        simp only [List.flatMap_cons, List.flatMap_nil, List.append_nil]
        rw [show '\n' :: t = ['\n'] ++ t from rfl, this, hc]
        rfl
    rw [← hs, List.getLast?_append] at hl
    exact hi.good.2 '\n' (hl ▸ rfl) rfl

/-- **C72.** Files with the line ends of other systems (`\r\n`) are not accepted either. -/
theorem C72_carriage_return (T : Text K) {s : Txt} (hs : '\r' ∈ s) (is : List (Item K)) : parseFile T s ≠ .ok is := by
  intro h
  obtain ⟨ts, rfl, h'⟩ := parse_sound h
  rcases mem_intercalate hs with hc | ⟨t, ht, hc⟩
  · revert hc; decide
  · obtain ⟨i, -, hi⟩ := rel_of_mem h' ht
    exact hi.good.1 hc

omit [Field K] in
theorem alt_panic {α : Type} {p q : Parser α} {s : Txt} (h : p s = .error .panic) : alt p q s = .error .panic := by rw [alt, h]

theorem parse_panic {T : Text K} {s : Txt} (h : item T s = .error .panic) : parseFile T s = .error .panic := by
  have h1 : sepList1 (tag ['\n']) (item T) s = .error .panic := by rw [sepList1, h]; rfl
  have h2 : sepList0 (tag ['\n']) (item T) s = .error .panic := by rw [sepList0, h1]
  rw [parseFile]
  change lift (sepList0 (tag ['\n']) (item T) _) >>= _ = _
  rw [h2]
  rfl

/-- **C72.** The name of an unknown material does not give an error but a panic. -/
theorem C72_material (T : Text K) {m : Txt} (hm : IsName m) (h1 : m ≠ "AL6061".toList) (h2 : m ≠ "TEST".toList) : parseFile T ("material ".toList ++ m) = .error .panic := by
  refine parse_panic ?_
  have hp : preceded (tag "material ".toList) alphanumeric ("material ".toList ++ m) = .ok (m, []) := pre_complete (by simpa using alnum_complete hm (ends_nil _))
  have hf : (material : Parser (Item K)) ("material ".toList ++ m) = .error .panic := by
    rw [material, pmapO, hp, bind_ok]
    dsimp only
    rw [Material.ofText, if_neg h1, if_neg h2]
    rfl
  exact item_material.trans (alt_panic hf)

/-- **C72.** A text that is not a constraint does not give an error but a panic. -/
theorem C72_constraint (T : Text K) {a b c : Txt} (ha : IsName a) (hb : IsName b) (hc : ∀ d ∈ c, d ≠ '\n' ∧ d ≠ '\r') (h : Constraint.ofText T c = none) :
    parseFile T ("distributed_constraint ".toList ++ (a ++ ' ' :: (b ++ ' ' :: c))) = .error .panic := by
  refine parse_panic ?_
  rw [item_constraint]
  have e : "distributed_constraint ".toList ++ (a ++ ' ' :: (b ++ ' ' :: c)) = "distributed_constraint ".toList ++ (a ++ (" ".toList ++ (b ++ (" ".toList ++ (c ++ []))))) := by
    simp
  have hp : preceded (tag "distributed_constraint ".toList) (both alphanumeric (both (preceded (tag " ".toList) alphanumeric) (preceded (tag " ".toList) notLineEnding)))
      ("distributed_constraint ".toList ++ (a ++ (" ".toList ++ (b ++ (" ".toList ++ (c ++ [])))))) = .ok ((a, b, c), []) :=
    pre_complete (both_complete (alnum_complete ha (ends_cons _ (by decide))) (both_complete (pre_complete (alnum_complete hb (ends_cons _ (by decide))))
      (pre_complete (notLineEnding_complete (fun d hd => by simpa [isEol] using hc d hd) (.inl rfl)))))
  rw [e, constraint, pmapO, hp, bind_ok]
  dsimp only
  rw [h]
  rfl

/-! ## Examples -/

section example72
open MeshFile (exactText)

/-- The file example_files/hollow.bbnd. -/
def hollow : Txt := "polygon\n0 0 a\n1 0 b\n1 1 c\n0 1 d\nend\npolygon\n0.25 0.25\n0.25 0.75\n0.75 0.75\n0.75 0.25\nend\ncondition planestress 0.2\nmaterial AL6061\ndistributed_constraint a b xy\ndistributed_force c d 1000000 0".toList

/-- Its items. -/
def hollowItems : List (Item ℚ) :=
  [.polygon [⟨0, 0, some ['a']⟩, ⟨1, 0, some ['b']⟩, ⟨1, 1, some ['c']⟩, ⟨0, 1, some ['d']⟩],
    .polygon [⟨1 / 4, 1 / 4, none⟩, ⟨1 / 4, 3 / 4, none⟩, ⟨3 / 4, 3 / 4, none⟩, ⟨3 / 4, 1 / 4, none⟩], .condition (.planeStress (1 / 5)), .material .al6061,
    .constraint ['a'] ['b'] .xyFixed, .force ['c'] ['d'] 1000000 0]

/-- C72_grammar: the file is accepted, and so it meets the grammar. -/
theorem hollow_parses : parseFile exactText hollow = .ok hollowItems := by decide +kernel

example : ∃ ts, hollow = List.intercalate ['\n'] ts ∧ List.Forall₂ (IsItem exactText) ts hollowItems := (C72_grammar exactText hollow hollowItems).1 hollow_parses

/-- C72_newline, C72_trailing: the same file with a newline at its end is rejected. -/
example : hollow ≠ [] ∧ parseFile exactText (hollow ++ ['\n']) = .error .err := ⟨by decide +kernel, C72_newline exactText (by decide +kernel) hollow_parses⟩

/-- C72_carriage_return: two items with the line end of other systems. -/
example : '\r' ∈ "material TEST\r\ncondition axisymmetric".toList ∧ parseFile exactText "material TEST\r\ncondition axisymmetric".toList = .error .err ∧
    parseFile exactText "material TEST\ncondition axisymmetric".toList = .ok [.material .test, .condition .axisymmetric] := by decide +kernel

/-- C72_material, C72_constraint: names that are not known. -/
example : parseFile exactText "material STEEL".toList = .error .panic ∧ parseFile exactText "distributed_constraint a b free".toList = .error .panic :=
  ⟨C72_material exactText (m := "STEEL".toList) ⟨by decide, by decide⟩ (by decide) (by decide),
    C72_constraint exactText (a := "a".toList) (b := "b".toList) (c := "free".toList) ⟨by decide, by decide⟩ ⟨by decide, by decide⟩ (by decide) rfl⟩

/-- Numbers of a vertex must be numbers, and a polygon must be closed. -/
example : parseFile exactText "polygon\n0 zero\nend".toList = .error .err ∧ parseFile exactText "polygon\n0 0\n1 0".toList = .error .err ∧
    parseFile exactText "polygon\nend".toList = .error .err ∧ parseFile exactText [] = .ok [] := by decide +kernel

end example72

end BoundFile
end Bugi
