import Verif.Props.Draw
import Verif.Props.Cli
import Verif.Props.Patch

/-! Pictures of meshes and of displaced assemblages: property C85. -/

set_option linter.unusedSectionVars false

namespace Bugi
namespace Visual
open MatrixLike Predicates Element

/-! ## Painting in layers -/

/-- Painting one thing after the other: a pixel has the colour of the last thing that covers it. -/
theorem layers {α : Type} {s : Nat} (f : α → Image → Res Image) (Cov : α → Nat × Nat → Prop) (Col : α → Nat × Nat → Rgb → Prop) :
    ∀ (ts : List α) (_ : ∀ t ∈ ts, ∀ img : Image, img.size = s → ∃ img', f t img = .ok img' ∧ img'.size = s ∧
      ∀ q, (Cov t q ∧ Col t q (img'.px q.1 q.2)) ∨ (¬ Cov t q ∧ img'.px q.1 q.2 = img.px q.1 q.2)) (img : Image), img.size = s →
    ∃ img', each ts img f = .ok img' ∧ img'.size = s ∧
      ∀ q, (∃ pre t post, ts = pre ++ t :: post ∧ Cov t q ∧ (∀ t' ∈ post, ¬ Cov t' q) ∧ Col t q (img'.px q.1 q.2)) ∨
        ((∀ t ∈ ts, ¬ Cov t q) ∧ img'.px q.1 q.2 = img.px q.1 q.2) := by
  intro ts
  induction ts with
  | nil => intro _ img hs; exact ⟨img, rfl, hs, fun q => .inr ⟨by simp, rfl⟩⟩
  | cons t ts ih =>
    intro h img hs
    obtain ⟨img1, h1, h2, h3⟩ := h t (by simp) img hs
    obtain ⟨img2, k1, k2, k3⟩ := ih (fun t' ht' => h t' (by simp [ht'])) img1 h2
    refine ⟨img2, by rw [each_cons, h1, Res.bind_ok, k1], k2, fun q => ?_⟩
    rcases k3 q with ⟨pre, t', post, rfl, a1, a2, a3⟩ | ⟨a1, a2⟩
    · exact .inl ⟨t :: pre, t', post, rfl, a1, a2, a3⟩
    · rcases h3 q with ⟨b1, b2⟩ | ⟨b1, b2⟩
      · exact .inl ⟨[], t, ts, rfl, b1, a1, by rw [a2]; exact b2⟩
      · refine .inr ⟨fun t' ht' => ?_, a2.trans b2⟩
        rcases List.mem_cons.1 ht' with rfl | ht'
        · exact b1
        · exact a1 t' ht'

theorem layers_to {α : Type} {s : Nat} {f : α → Image → Res Image} (Cov : α → Nat × Nat → Prop) (Col : α → Nat × Nat → Rgb → Prop) {P : Image → Prop}
    {ts : List α} (hf : ∀ t ∈ ts, ∀ img : Image, img.size = s → ∃ img', f t img = .ok img' ∧ img'.size = s ∧
      ∀ q, (Cov t q ∧ Col t q (img'.px q.1 q.2)) ∨ (¬ Cov t q ∧ img'.px q.1 q.2 = img.px q.1 q.2)) {img : Image} (hs : img.size = s)
    (hP : ∀ img' : Image, img'.size = s → (∀ q, (∃ pre t post, ts = pre ++ t :: post ∧ Cov t q ∧ (∀ t' ∈ post, ¬ Cov t' q) ∧ Col t q (img'.px q.1 q.2)) ∨
        ((∀ t ∈ ts, ¬ Cov t q) ∧ img'.px q.1 q.2 = img.px q.1 q.2)) → P img') : ∃ img', each ts img f = .ok img' ∧ P img' := by
  obtain ⟨img', h1, h2, h3⟩ := layers f Cov Col ts hf img hs
  exact ⟨img', h1, hP img' h2 h3⟩

/-- Painting one pixel. -/
theorem put_layer {s : Nat} {img : Image} (hs : img.size = s) {p : Nat × Nat} (h : p.1 < s ∧ p.2 < s) (c : Rgb) :
    ∃ img', img.put p.1 p.2 c = .ok img' ∧ img'.size = s ∧ ∀ q, (p = q ∧ img'.px q.1 q.2 = c) ∨ (p ≠ q ∧ img'.px q.1 q.2 = img.px q.1 q.2) := by
  refine ⟨{ img with px := fun i j => if i = p.1 ∧ j = p.2 then c else img.px i j }, by rw [Image.put, if_pos (by rw [hs]; exact h)], hs, fun q => ?_⟩
  by_cases hq : p = q
  · subst hq; exact .inl ⟨rfl, by simp⟩
  · refine .inr ⟨hq, if_neg ?_⟩
    rintro ⟨h1, h2⟩
    exact hq (Prod.ext h1.symm h2.symm)

section
variable {K : Type} [Field K] [LinearOrder K] [IsStrictOrderedRing K]

/-- A pixel in the closed triangle of three pixels that do not lie on one line, with the value interpolated between the corners. -/
def Covers (a b c : Nat × Nat) (va vb vc : K) (q : Nat × Nat) (x : K) : Prop :=
  (((b.1 : Int) - a.1) * ((c.2 : Int) - a.2) ≠ ((c.1 : Int) - a.1) * ((b.2 : Int) - a.2)) ∧
  ∃ u v w : K, 0 ≤ u ∧ 0 ≤ v ∧ 0 ≤ w ∧ u + v + w = 1 ∧ u * a.1 + v * b.1 + w * c.1 = q.1 ∧ u * a.2 + v * b.2 + w * c.2 = q.2 ∧ x = u * va + v * vb + w * vc

theorem turn_cast (a b c : Nat × Nat) : turn (a.1 : K) a.2 b.1 b.2 c.1 c.2 ≠ 0 ↔
    (((b.1 : Int) - a.1) * ((c.2 : Int) - a.2) ≠ ((c.1 : Int) - a.1) * ((b.2 : Int) - a.2)) := by
  rw [turn, Ne, sub_eq_zero, not_iff_not]
  have : (((((b.1 : Int) - a.1) * ((c.2 : Int) - a.2) : Int) : K) = ((((c.1 : Int) - a.1) * ((b.2 : Int) - a.2) : Int) : K)) ↔ _ := Int.cast_inj
  rw [← this]
  push_cast
  rfl

theorem interp_covers (a b c : Nat × Nat) (va vb vc : K) : ∃ res, triangleInterp a b c va vb vc = .ok res ∧ (res.map Prod.fst).Nodup ∧
    ∀ p x, (p, x) ∈ res ↔ Covers a b c va vb vc p x := by
  by_cases hD : turn (a.1 : K) a.2 b.1 b.2 c.1 c.2 = 0
  · exact ⟨[], C67_flat hD va vb vc, by simp, fun p x => by
      simp only [List.not_mem_nil, false_iff]
      rintro ⟨h, -⟩
      exact (turn_cast a b c).2 h hD⟩
  · obtain ⟨res, h1, h2, h3⟩ := C67_fill hD va vb vc
    exact ⟨res, h1, h2, fun p x => by rw [h3]; exact ⟨fun h => ⟨(turn_cast a b c).1 hD, h⟩, fun h => h.2⟩⟩

theorem covers_box {a b c : Nat × Nat} {va vb vc : K} {q : Nat × Nat} {x : K} (h : Covers a b c va vb vc q x) {hi : Nat}
    (ha : a.1 ≤ hi ∧ a.2 ≤ hi) (hb : b.1 ≤ hi ∧ b.2 ≤ hi) (hc : c.1 ≤ hi ∧ c.2 ≤ hi) : q.1 ≤ hi ∧ q.2 ≤ hi := by
  obtain ⟨-, u, v, w, h1, h2, h3, h4, h5, h6, -⟩ := h
  have key : ∀ {x y z t : Nat}, x ≤ hi → y ≤ hi → z ≤ hi → u * x + v * y + w * z = (t : K) → t ≤ hi := by
    intro x y z t hx hy hz ht
    have := combo_le (a := (x : K)) (b := y) (c := z) h1 h2 h3 h4
    rw [ht] at this
    have hm : max (x : K) (max (y : K) z) ≤ hi := max_le (by exact_mod_cast hx) (max_le (by exact_mod_cast hy) (by exact_mod_cast hz))
    exact_mod_cast this.trans hm
  exact ⟨key ha.1 hb.1 hc.1 h5, key ha.2 hb.2 hc.2 h6⟩

/-- A pixel in a triangle between the pixels `pix`, with the value interpolated between `vals`. -/
def Filled (pix : List (Nat × Nat)) (vals : List K) (t : Nat × Nat × Nat) (q : Nat × Nat) (x : K) : Prop :=
  ∃ a b c va vb vc, pix[t.1]? = some a ∧ pix[t.2.1]? = some b ∧ pix[t.2.2]? = some c ∧ vals[t.1]? = some va ∧ vals[t.2.1]? = some vb ∧ vals[t.2.2]? = some vc ∧
    Covers a b c va vb vc q x

/-- A pixel on the line between two of the pixels `pix`. -/
def OnLine (pix : List (Nat × Nat)) (e : Nat × Nat) (q : Nat × Nat) : Prop :=
  ∃ o f : Nat × Nat, pix[e.1]? = some o ∧ pix[e.2]? = some f ∧ ((q.1 : Int), (q.2 : Int)) ∈ line (o.1, o.2) (f.1, f.2)

/-- A pixel that is at most one row and one column away from `p`. -/
def Near (p q : Nat × Nat) : Prop := (p.1 ≤ q.1 + 1 ∧ q.1 ≤ p.1 + 1) ∧ (p.2 ≤ q.2 + 1 ∧ q.2 ≤ p.2 + 1)

variable [FloorRing K]

theorem triangles_paint {s : Nat} {pix : List (Nat × Nat)} (hpix : ∀ p ∈ pix, p.1 < s ∧ p.2 < s) (hs : 0 < s)
    (v : Visualizer K) (htri : ∀ ts, v.triangles = some ts → ∀ t ∈ ts, t.1 < pix.length ∧ t.2.1 < pix.length ∧ t.2.2 < pix.length)
    (hval : ∀ vs, v.nodeVals = some vs → vs.length = pix.length) (options : VisOptions K) {img : Image} (h : img.size = s) :
    ∃ img', Visualizer.drawTriangles pix v options img = .ok img' ∧ img'.size = s ∧ ∀ q : Nat × Nat,
      (∃ vals pre t post x, v.nodeVals = some vals ∧ v.triangles.getD [] = pre ++ t :: post ∧ Filled pix vals t q x ∧ (∀ t' ∈ post, ∀ x', ¬ Filled pix vals t' q x') ∧
        img'.px q.1 q.2 = (options.colorMap.getD hotMap) x) ∨
      ((∀ vals, v.nodeVals = some vals → ∀ t ∈ v.triangles.getD [], ∀ x, ¬ Filled pix vals t q x) ∧ img'.px q.1 q.2 = img.px q.1 q.2) := by
  unfold Visualizer.drawTriangles
  split
  · rename_i ts vs h1 h2
    refine layers_to (s := s) (fun t q => ∃ x, Filled pix vs t q x)
      (fun t q c => ∃ x, Filled pix vs t q x ∧ c = (options.colorMap.getD hotMap) x) (by
      intro t ht img hs'
      obtain ⟨a1, a2, a3⟩ := htri ts h1 t ht
      have hl := hval vs h2
      rw [vget_lt a1, vget_lt a2, vget_lt a3, vget_lt (show t.1 < vs.length by omega), vget_lt (show t.2.1 < vs.length by omega), vget_lt (show t.2.2 < vs.length by omega)]
      simp only [Res.bind_ok]
      obtain ⟨res, g1, g2, g3⟩ := interp_covers pix[t.1] pix[t.2.1] pix[t.2.2] (vs[t.1]'(by omega)) (vs[t.2.1]'(by omega)) (vs[t.2.2]'(by omega))
      rw [g1, Res.bind_ok]
      have hF : ∀ q x, Filled pix vs t q x ↔ (q, x) ∈ res := by
        intro q x
        rw [g3]
        constructor
        · rintro ⟨a, b, c, va, vb, vc, e1, e2, e3, e4, e5, e6, e7⟩
          rw [List.getElem?_eq_getElem (by omega), Option.some.injEq] at e1 e2 e3 e4 e5 e6
          rw [e1, e2, e3, e4, e5, e6]
          exact e7
        · intro hc
          exact ⟨_, _, _, _, _, _, List.getElem?_eq_getElem _, List.getElem?_eq_getElem _, List.getElem?_eq_getElem _, List.getElem?_eq_getElem _,
            List.getElem?_eq_getElem _, List.getElem?_eq_getElem _, hc⟩
      obtain ⟨img2, m1, m2, m3⟩ := layers (s := s) (fun (e : (Nat × Nat) × K) (img : Image) => img.put e.1.1 e.1.2 (match options.colorMap with
        | some cm => cm e.2
        | none => hotMap e.2)) (fun e q => e.1 = q) (fun e q c => c = (options.colorMap.getD hotMap) e.2) res (by
          intro e he img' hs2
          have hb := covers_box (hi := s - 1) ((g3 e.1 e.2).1 he) (by have := hpix _ (List.getElem_mem a1); omega) (by have := hpix _ (List.getElem_mem a2); omega)
            (by have := hpix _ (List.getElem_mem a3); omega)
          have := put_layer hs2 (p := e.1) (by omega) (match options.colorMap with
            | some cm => cm e.2
            | none => hotMap e.2)
          obtain ⟨i3, n1, n2, n3⟩ := this
          refine ⟨i3, n1, n2, fun q => (n3 q).imp_left fun n => ⟨n.1, n.2.trans ?_⟩⟩
          cases options.colorMap <;> rfl) img hs'
      refine ⟨img2, m1, m2, fun q => ?_⟩
      rcases m3 q with ⟨pre, e, post, he, c1, -, c3⟩ | ⟨c1, c2⟩
      · subst c1
        have : Filled pix vs t e.1 e.2 := (hF _ _).2 (by rw [he]; simp)
        exact .inl ⟨⟨_, this⟩, _, this, c3⟩
      · refine .inr ⟨?_, c2⟩
        rintro ⟨x, hx⟩
        exact c1 _ ((hF _ _).1 hx) rfl) h fun img' k2 k3 => ⟨k2, fun q => ?_⟩
    rcases k3 q with ⟨pre, t, post, e1, -, e3, x, e4, e5⟩ | ⟨e1, e2⟩
    · exact .inl ⟨vs, pre, t, post, x, h2, by rw [h1]; exact e1, e4, fun t' ht' x' hx' => e3 t' ht' ⟨x', hx'⟩, e5⟩
    · refine .inr ⟨fun vals hv t ht x hx => ?_, e2⟩
      obtain rfl := Option.some.inj (h2.symm.trans hv)
      exact e1 t (by rw [h1] at ht; exact ht) ⟨x, hx⟩
  · rename_i hno
    refine ⟨img, rfl, h, fun q => .inr ⟨fun vals hv t ht => ?_, rfl⟩⟩
    rcases hts : v.triangles with _ | ts
    · rw [hts] at ht; exact absurd ht (by simp)
    · exact absurd hv (hno ts vals hts)

theorem lines_paint {s : Nat} {pix : List (Nat × Nat)} (hpix : ∀ p ∈ pix, (1 ≤ p.1 ∧ p.1 < s) ∧ (1 ≤ p.2 ∧ p.2 < s)) (v : Visualizer K) {img : Image} (h : img.size = s) :
    ∃ img', Visualizer.drawLines pix v img = .ok img' ∧ img'.size = s ∧ ∀ q : Nat × Nat,
      ((∃ e ∈ v.edges.getD [], OnLine pix e q) ∧ img'.px q.1 q.2 = (0, 255, 0)) ∨
      ((∀ e ∈ v.edges.getD [], ¬ OnLine pix e q) ∧ img'.px q.1 q.2 = img.px q.1 q.2) := by
  unfold Visualizer.drawLines
  split
  · rename_i es hes
    refine layers_to (s := s) (fun e q => OnLine pix e q) (fun e q c => c = (0, 255, 0)) (by
      intro e he img hs
      split
      · rename_i o f ho hf
        have b1 := hpix _ (List.mem_of_getElem? ho)
        have b2 := hpix _ (List.mem_of_getElem? hf)
        obtain ⟨img2, m1, m2, m3⟩ := layers (s := s) (fun (d : Nat × Nat) (img : Image) => img.put d.1 d.2 (0, 255, 0)) (fun d q => d = q)
          (fun d q c => c = (0, 255, 0)) (lineUnsigned o f) (by
            intro d hd img hs
            have hb := line_box ((C66_kept o f d).1 hd).1
            simp only at hb
            exact put_layer hs (by omega) _) img hs
        refine ⟨img2, m1, m2, fun q => ?_⟩
        have hO : OnLine pix e q ↔ q ∈ lineUnsigned o f := by
          rw [C66_kept]
          constructor
          · rintro ⟨o', f', g1, g2, g3⟩
            obtain rfl := Option.some.inj (ho.symm.trans g1)
            obtain rfl := Option.some.inj (hf.symm.trans g2)
            have hb := line_box g3
            simp only at hb
            exact ⟨g3, by omega, by omega⟩
          · intro g
            exact ⟨o, f, ho, hf, g.1⟩
        rcases m3 q with ⟨pre, d, post, hd, c1, -, c3⟩ | ⟨c1, c2⟩
        · exact .inl ⟨hO.2 (by rw [hd, ← c1]; simp), c3⟩
        · exact .inr ⟨fun hq => c1 q (hO.1 hq) rfl, c2⟩
      · rename_i hno
        refine ⟨img, rfl, hs, fun q => .inr ⟨?_, rfl⟩⟩
        rintro ⟨o, f, g1, g2, -⟩
        exact hno o f g1 g2) h fun img' k2 k3 => ⟨k2, fun q => ?_⟩
    rw [hes]
    rcases k3 q with ⟨pre, e, post, e1, e2, -, e4⟩ | ⟨e1, e2⟩
    · exact .inl ⟨⟨e, by simp [e1], e2⟩, e4⟩
    · exact .inr ⟨e1, e2⟩
  · rename_i hes
    exact ⟨img, rfl, h, fun q => .inr ⟨by simp [hes], rfl⟩⟩

theorem dots_paint {s : Nat} {pix : List (Nat × Nat)} (hpix : ∀ p ∈ pix, (1 ≤ p.1 ∧ p.1 + 1 < s) ∧ (1 ≤ p.2 ∧ p.2 + 1 < s)) (v : Visualizer K)
    (hcol : ∀ c ∈ v.colors, c < 4) {img : Image} (h : img.size = s) :
    ∃ img', Visualizer.drawDots pix v img = .ok img' ∧ img'.size = s ∧ ∀ q : Nat × Nat,
      (∃ pre e post, pix.zip v.colors = pre ++ e :: post ∧ Near e.1 q ∧ (∀ e' ∈ post, ¬ Near e'.1 q) ∧ stdCol[e.2]? = some (img'.px q.1 q.2)) ∨
      ((∀ e ∈ pix.zip v.colors, ¬ Near e.1 q) ∧ img'.px q.1 q.2 = img.px q.1 q.2) := by
  unfold Visualizer.drawDots
  refine layers (s := s) _ (fun (e : (Nat × Nat) × Nat) q => Near e.1 q) (fun e q c => stdCol[e.2]? = some c) _ ?_ img h
  intro e he img hs
  have hp := hpix _ (List.of_mem_zip he).1
  have hc : e.2 < stdCol.length := hcol _ (List.of_mem_zip he).2
  obtain ⟨l, g1, -, -, g4⟩ := C69_dot (x := e.1.1) (y := e.1.2) (by omega) (by omega)
  rw [g1, Res.bind_ok]
  simp only [vget_lt hc, Res.bind_ok]
  obtain ⟨img2, m1, m2, m3⟩ := layers (s := s) (fun (d : Nat × Nat) (img : Image) => img.put d.1 d.2 stdCol[e.2]) (fun d q => d = q)
    (fun d q c => c = stdCol[e.2]) l (by
      intro d hd img hs
      have := (g4 d).1 hd
      exact put_layer hs (by omega) _) img hs
  refine ⟨img2, m1, m2, fun q => ?_⟩
  rcases m3 q with ⟨pre, d, post, hd, c1, -, c3⟩ | ⟨c1, c2⟩
  · exact .inl ⟨(g4 q).1 (by rw [hd, ← c1]; simp), by rw [c3, List.getElem?_eq_getElem hc]⟩
  · exact .inr ⟨fun hq => c1 q ((g4 q).2 hq) rfl, c2⟩

/-- The colour `c` of the pixel `q` in a picture with the nodes at the pixels `pix`: from front to back the dots of the nodes, the later ones in front, green lines, triangles
coloured by the values, the later ones in front, and the background. -/
def Shown (v : Visualizer K) (options : VisOptions K) (pix : List (Nat × Nat)) (q : Nat × Nat) (c : Rgb) : Prop :=
  (options.showMesh = true ∧ ∃ pre e post, pix.zip v.colors = pre ++ e :: post ∧ Near e.1 q ∧ (∀ e' ∈ post, ¬ Near e'.1 q) ∧ stdCol[e.2]? = some c) ∨
  ((options.showMesh = true → ∀ p ∈ pix, ¬ Near p q) ∧
    ((options.showMesh = true ∧ (∃ e ∈ v.edges.getD [], OnLine pix e q) ∧ c = (0, 255, 0)) ∨
    ((options.showMesh = true → ∀ e ∈ v.edges.getD [], ¬ OnLine pix e q) ∧
      ((∃ vals pre t post x, v.nodeVals = some vals ∧ v.triangles.getD [] = pre ++ t :: post ∧ Filled pix vals t q x ∧ (∀ t' ∈ post, ∀ x', ¬ Filled pix vals t' q x') ∧
        c = (options.colorMap.getD hotMap) x) ∨
      ((∀ vals, v.nodeVals = some vals → ∀ t ∈ v.triangles.getD [], ∀ x, ¬ Filled pix vals t q x) ∧ c = back)))))

/-- **C85.** What every pixel of a picture shows. -/
theorem C85_picture (tr : Trig K) (v : Visualizer K) (options : VisOptions K) {coors : List (K × K)} (hp : v.project tr = .ok coors)
    (hne : ∃ c ∈ coors, ∃ d ∈ coors, c ≠ d) {s : Nat} (hsz : s = options.imSize.getD v.imSize) (h16 : 16 ≤ s) (hs : s ≤ 4294967295)
    (htri : ∀ ts, v.triangles = some ts → ∀ t ∈ ts, t.1 < coors.length ∧ t.2.1 < coors.length ∧ t.2.2 < coors.length)
    (hval : ∀ vs, v.nodeVals = some vs → vs.length = coors.length) (hcol : v.colors.length = coors.length ∧ ∀ c ∈ v.colors, c < 4) :
    ∃ pix img, ({ v with imSize := s } : Visualizer K).enpixel tr = .ok pix ∧ pix.length = coors.length ∧ v.draw tr options = .ok img ∧ img.size = s ∧
      ∀ q, Shown v options pix q (img.px q.1 q.2) := by
  obtain ⟨pix, h1, h2, h3, -⟩ := C69_pixels tr ({ v with imSize := s } : Visualizer K) (coors := coors) hp hne hs
  simp only at h3
  have hlo : 1 ≤ (s + 5) / 10 := by omega
  have hhi : (9 * s + 5) / 10 + 1 < s := by omega
  obtain ⟨img1, a1, a2, a3⟩ := triangles_paint (s := s) (pix := pix) (fun p hp => by have := h3 p hp; omega) (by omega) ({ v with imSize := s } : Visualizer K)
    (by rw [h2]; exact htri) (by rw [h2]; exact hval) options (img := ⟨s, fun _ _ => back⟩) rfl
  obtain ⟨img2, b1, b2, b3⟩ := lines_paint (s := s) (pix := pix) (fun p hp => by have := h3 p hp; omega) ({ v with imSize := s } : Visualizer K) a2
  obtain ⟨img3, c1, c2, c3⟩ := dots_paint (s := s) (pix := pix) (fun p hp => by have := h3 p hp; omega) ({ v with imSize := s } : Visualizer K) hcol.2 b2
  unfold Visualizer.draw
  simp only [← hsz, h1, Res.bind_ok, a1]
  by_cases hm : options.showMesh = true
  · refine ⟨pix, img3, rfl, h2, by rw [if_pos hm, b1, Res.bind_ok, c1], c2, fun q => ?_⟩
    rcases c3 q with hd | ⟨hd, e3⟩
    · exact .inl ⟨hm, hd⟩
    · refine .inr ⟨fun _ p hp hn => ?_, ?_⟩
      · obtain ⟨i, hi, rfl⟩ := List.getElem_of_mem hp
        have hi' : i < v.colors.length := by omega
        exact hd (pix[i], v.colors[i]) (List.mem_iff_getElem.2 ⟨i, by rw [List.length_zip]; simp only; omega, by simp⟩) hn
      · rcases b3 q with ⟨hl, e2⟩ | ⟨hl, e2⟩
        · exact .inl ⟨hm, hl, e3.trans e2⟩
        · refine .inr ⟨fun _ => hl, ?_⟩
          rcases a3 q with ⟨vals, pre, t, post, x, g1, g2, g3, g4, g5⟩ | ⟨g1, g2⟩
          · exact .inl ⟨vals, pre, t, post, x, g1, g2, g3, g4, (e3.trans e2).trans g5⟩
          · exact .inr ⟨g1, (e3.trans e2).trans g2⟩
  · refine ⟨pix, img1, rfl, h2, by rw [if_neg hm], a2, fun q => .inr ⟨fun h => absurd h hm, .inr ⟨fun h => absurd h hm, ?_⟩⟩⟩
    rcases a3 q with ⟨vals, pre, t, post, x, g1, g2, g3, g4, g5⟩ | ⟨g1, g2⟩
    · exact .inl ⟨vals, pre, t, post, x, g1, g2, g3, g4, g5⟩
    · exact .inr ⟨g1, g2⟩

end

end Visual

/-! ## The picture of a mesh -/

namespace Mesh
open Predicates Plane Visual

theorem onceEach_spec (keys : List Seg) : (onceEach keys).Nodup ∧ (∀ e ∈ onceEach keys, e ∈ keys) ∧ (∀ e ∈ keys, e ∈ onceEach keys ∨ rev e ∈ onceEach keys) ∧
    ∀ e ∈ onceEach keys, rev e ∈ onceEach keys → rev e = e := by
  induction keys using List.reverseRecOn with
  | nil => simp [onceEach]
  | append_singleton keys e ih =>
    obtain ⟨h1, h2, h3, h4⟩ := ih
    have hstep : onceEach (keys ++ [e]) = if rev e ∈ onceEach keys then onceEach keys else sset (onceEach keys) e := by
      rw [onceEach, List.foldl_append]; rfl
    rw [hstep]
    split_ifs with hr
    · refine ⟨h1, fun x hx => List.mem_append_left _ (h2 x hx), fun x hx => ?_, h4⟩
      rcases List.mem_append.1 hx with hx | hx
      · exact h3 x hx
      · rw [List.mem_singleton.1 hx]; exact .inr hr
    · refine ⟨sset_nodup h1 e, fun x hx => ?_, fun x hx => ?_, fun x hx hx' => ?_⟩
      · rcases (mem_sset _ _ _).1 hx with hx | rfl
        · exact List.mem_append_left _ (h2 x hx)
        · simp
      · rw [mem_sset, mem_sset]
        rcases List.mem_append.1 hx with hx | hx
        · rcases h3 x hx with h | h
          · exact .inl (.inl h)
          · exact .inr (.inl h)
        · exact .inl (.inr (List.mem_singleton.1 hx))
      · rw [mem_sset] at hx hx'
        rcases hx with hx | rfl
        · rcases hx' with hx' | hx'
          · exact h4 x hx hx'
          · subst hx'; rw [rev_rev] at hr; exact absurd hx hr
        · rcases hx' with hx' | hx'
          · exact absurd hx' hr
          · exact hx'

section
variable {K : Type} [Field K] [LinearOrder K]

theorem ofPoints_flat {q : List (K × K)} (h : q ≠ []) : Visualizer.ofPoints (q.map fun c => Point.pt2 c.1 c.2) =
    .ok ⟨2, 256, q.map fun c => Point.pt2 c.1 c.2, List.replicate q.length 0, none, none, none, none⟩ := by
  obtain ⟨a, as, rfl⟩ := List.exists_cons_of_ne_nil h
  rw [List.map_cons, Visualizer.ofPoints, if_neg]
  · simp [Point.pt2, defaultImgSize]
  · rintro ⟨p, hp, hn⟩
    rw [← List.map_cons (f := fun c : K × K => Point.pt2 c.1 c.2)] at hp
    obtain ⟨c, -, rfl⟩ := List.mem_map.1 hp
    exact hn rfl

variable [IsStrictOrderedRing K]

/-- **C85.** The picture of a mesh: its points are the vertices, and two vertices are joined by one line if they belong to a side of a triangle, and by none otherwise. -/
theorem C85_mesh [FloorRing K] {g : Geo K} {T : Plane K} (hT : Whole g T) (hne : T.allVertices ≠ []) (keys drain : List Seg → List Seg) (hk : ∀ l, (keys l).Perm l)
    (hd : ∀ l, (drain l).Perm l) :
    ∃ E, T.visualize keys drain = .ok ⟨2, 256, T.allVertices.map (fun v => Point.pt2 (T.get v).1 (T.get v).2), List.replicate T.allVertices.length 0,
        if E = [] then none else some E, none, none, none⟩ ∧
      (∀ e ∈ E, e.1 < T.allVertices.length ∧ e.2 < T.allVertices.length) ∧
      ∀ i j v w : Nat, T.allVertices[i]? = some v → T.allVertices[j]? = some w →
        (((∃ t ∈ hkeys T.full, (v, w) ∈ Tri.edges t ∨ (w, v) ∈ Tri.edges t) → E.count (i, j) + E.count (j, i) = 1) ∧
        ((¬ ∃ t ∈ hkeys T.full, (v, w) ∈ Tri.edges t ∨ (w, v) ∈ Tri.edges t) → E.count (i, j) + E.count (j, i) = 0)) := by
  have hn := hT.nodup
  obtain ⟨o1, o2, o3, o4⟩ := onceEach_spec (keys (hkeys T.tris))
  set r := onceEach (keys (hkeys T.tris)) with hr
  have hkey : ∀ e, e ∈ r → ∃ t ∈ hkeys T.full, e ∈ Tri.edges t := fun e he => (hT.good.mem_tris e).1 ((hk _).mem_iff.1 (o2 e he))
  have hkey' : ∀ t ∈ hkeys T.full, ∀ e ∈ Tri.edges t, e ∈ r ∨ rev e ∈ r := fun t ht e he => o3 e ((hk _).mem_iff.2 ((hT.good.mem_tris e).2 ⟨t, ht, he⟩))
  have hin : ∀ e ∈ r, e.1 ∈ T.allVertices ∧ e.2 ∈ T.allVertices := by
    intro e he
    obtain ⟨t, ht, hte⟩ := hkey e he
    obtain ⟨l1, l2, l3⟩ := hT.known t ht
    simp only [Tri.edges, List.mem_cons, List.not_mem_nil, or_false] at hte
    rcases hte with rfl | rfl | rfl
    · exact ⟨l1, l2⟩
    · exact ⟨l2, l3⟩
    · exact ⟨l3, l1⟩
  have hproper : ∀ e ∈ r, e.1 ≠ e.2 := by
    intro e he heq
    obtain ⟨t, ht, hte⟩ := hkey e he
    have ha := hT.good.pos t ht
    simp only [Tri.edges, List.mem_cons, List.not_mem_nil, or_false] at hte
    rcases hte with rfl | rfl | rfl <;> simp only at heq <;> simp only [area2, heq] at ha <;> ring_nf at ha <;> exact absurd ha (lt_irrefl _)
  set pos : Seg → Nat × Nat := fun e => (T.allVertices.idxOf e.1, T.allVertices.idxOf e.2) with hpos
  have hE : each (drain r) [] (fun e l => do
      let i ← Plane.node (Plane.lookup T.allVertices (List.range T.allVertices.length)) e.1
      let j ← Plane.node (Plane.lookup T.allVertices (List.range T.allVertices.length)) e.2
      .ok (l ++ [(i, j)])) = .ok ((drain r).map pos) := by
    have := each_push (drain r) (fun e => do
      let i ← Plane.node (Plane.lookup T.allVertices (List.range T.allVertices.length)) e.1
      let j ← Plane.node (Plane.lookup T.allVertices (List.range T.allVertices.length)) e.2
      .ok (i, j)) pos (by
        intro e he
        obtain ⟨m1, m2⟩ := hin e ((hd _).mem_iff.1 he)
        rw [List.range_eq_range', node_ok hn (get_idx m1), Res.bind_ok, node_ok hn (get_idx m2), Res.bind_ok]) []
    simp only [bind_assoc, Res.bind_ok, List.nil_append] at this
    exact this
  have hmem : ∀ i j v w : Nat, T.allVertices[i]? = some v → T.allVertices[j]? = some w → ((i, j) ∈ (drain r).map pos ↔ (v, w) ∈ r) := by
    intro i j v w hi hj
    have hx : ∀ {i v : Nat}, T.allVertices[i]? = some v → T.allVertices.idxOf v = i := by
      intro i v h
      obtain ⟨hl, rfl⟩ := List.getElem?_eq_some_iff.1 h
      exact hn.idxOf_getElem i hl
    rw [List.mem_map]
    constructor
    · rintro ⟨e, he, h⟩
      have he' := (hd _).mem_iff.1 he
      obtain ⟨m1, m2⟩ := hin e he'
      obtain ⟨h1, h2⟩ := Prod.mk.inj h
      have e1 := get_idx m1
      have e2 := get_idx m2
      rw [h1, hi] at e1
      rw [h2, hj] at e2
      rw [Option.some.inj e1, Option.some.inj e2]
      exact he'
    · intro h
      exact ⟨(v, w), (hd _).mem_iff.2 h, by rw [hpos]; simp only [hx hi, hx hj]⟩
  have hnd : ((drain r).map pos).Nodup := by
    refine List.Nodup.map_on ?_ ((hd r).nodup_iff.2 o1)
    intro x hx y hy hxy
    obtain ⟨h1, h2⟩ := Prod.mk.inj hxy
    obtain ⟨m1, m2⟩ := hin x ((hd _).mem_iff.1 hx)
    obtain ⟨m3, m4⟩ := hin y ((hd _).mem_iff.1 hy)
    exact Prod.ext ((List.idxOf_inj m1).1 h1) ((List.idxOf_inj m2).1 h2)
  refine ⟨(drain r).map pos, ?_, ?_, ?_⟩
  · unfold Plane.visualize
    simp only [← hr]
    rw [hE, Res.bind_ok]
    have := ofPoints_flat (q := T.allVertices.map T.get) (by simpa using hne)
    rw [List.map_map, List.length_map] at this
    rw [show (fun v => Point.pt2 (T.get v).1 (T.get v).2) = (fun c : K × K => Point.pt2 c.1 c.2) ∘ T.get from rfl, this, Res.bind_ok]
    rfl
  · intro e he
    obtain ⟨x, hx, rfl⟩ := List.mem_map.1 he
    obtain ⟨m1, m2⟩ := hin x ((hd _).mem_iff.1 hx)
    exact ⟨List.idxOf_lt_length_of_mem m1, List.idxOf_lt_length_of_mem m2⟩
  · intro i j v w hi hj
    rw [hnd.count, hnd.count]
    simp only [hmem i j v w hi hj, hmem j i w v hj hi]
    constructor
    · rintro ⟨t, ht, h | h⟩
      · rcases hkey' t ht _ h with h' | h'
        · rw [if_pos h', if_neg]
          intro hc
          exact hproper _ h' (congrArg Prod.fst (o4 _ h' hc)).symm
        · have h'' : (w, v) ∈ r := h'
          rw [if_pos h'', if_neg]
          intro hc
          exact hproper _ hc (congrArg Prod.fst (o4 _ hc h'')).symm
      · rcases hkey' t ht _ h with h' | h'
        · rw [if_pos h', if_neg]
          intro hc
          exact hproper _ h' (congrArg Prod.fst (o4 _ h' hc)).symm
        · have h'' : (v, w) ∈ r := h'
          rw [if_pos h'', if_neg]
          intro hc
          exact hproper _ hc (congrArg Prod.fst (o4 _ hc h'')).symm
    · intro h
      rw [if_neg, if_neg]
      · intro hc
        obtain ⟨t, ht, he⟩ := hkey _ hc
        exact h ⟨t, ht, .inr he⟩
      · intro hc
        obtain ⟨t, ht, he⟩ := hkey _ hc
        exact h ⟨t, ht, .inl he⟩

/-- **C85.** The picture of a mesh with a triangle is drawn for every size from 16 on. Around each vertex there is a red dot; a pixel away from all dots is green if it lies on the
line of some side of a triangle, and has the background colour otherwise. -/
theorem C85_mesh_picture [FloorRing K] {g : Geo K} {T : Plane K} (hT : Whole g T) (hne : T.full ≠ []) (keys drain : List Seg → List Seg) (hk : ∀ l, (keys l).Perm l)
    (hd : ∀ l, (drain l).Perm l) (tr : Trig K) {s : Nat} (h16 : 16 ≤ s) (hs : s ≤ 4294967295) :
    ∃ vis pix img, T.visualize keys drain = .ok vis ∧ ({ vis with imSize := s } : Visualizer K).enpixel tr = .ok pix ∧ pix.length = T.allVertices.length ∧
      vis.draw tr ⟨none, some s, true⟩ = .ok img ∧ img.size = s ∧
      ∀ q : Nat × Nat, ((∃ p ∈ pix, Near p q) → img.px q.1 q.2 = (255, 0, 0)) ∧
        ((∀ p ∈ pix, ¬ Near p q) → img.px q.1 q.2 = (0, 255, 0) ∨ img.px q.1 q.2 = back) ∧
        ((∀ p ∈ pix, ¬ Near p q) → (img.px q.1 q.2 = (0, 255, 0) ↔ ∃ e ∈ vis.edges.getD [], OnLine pix e q)) := by
  obtain ⟨e0, he0⟩ := List.exists_mem_of_ne_nil _ hne
  have ht0 : e0.1 ∈ hkeys T.full := List.mem_map_of_mem he0
  obtain ⟨l1, l2, l3⟩ := hT.known _ ht0
  obtain ⟨E, h1, h2, -⟩ := C85_mesh hT (List.ne_nil_of_mem l1) keys drain hk hd
  have hq : (⟨2, 256, T.allVertices.map (fun v => Point.pt2 (T.get v).1 (T.get v).2), List.replicate T.allVertices.length 0,
        if E = [] then none else some E, none, none, none⟩ : Visualizer K).project tr = .ok (T.allVertices.map T.get) :=
    (C69_flat_projection tr _).2 (T.allVertices.map T.get) rfl (by rw [List.map_map]; rfl)
  obtain ⟨pix, img, k1, k2, k3, k4, k5⟩ := C85_picture tr _ ⟨none, some s, true⟩ hq (by
      refine ⟨_, List.mem_map_of_mem l1, _, List.mem_map_of_mem l2, fun heq => ?_⟩
      have ha := hT.good.pos _ ht0
      simp only [area2, heq] at ha
      ring_nf at ha
      exact absurd ha (lt_irrefl _)) (s := s) rfl h16 hs (by simp) (by simp) (by simp +contextual [List.mem_replicate])
  refine ⟨_, pix, img, h1, k1, by simpa using k2, k3, k4, fun q => ?_⟩
  have hgb : ((0, 255, 0) : Rgb) ≠ back := by decide
  rcases k5 q with ⟨-, pre, e, post, a1, a2, -, a4⟩ | ⟨a1, ⟨-, a2, a3⟩ | ⟨a2, ⟨vals, pre, t, post, x, a3, -⟩ | ⟨-, a3⟩⟩⟩
  · have he : e ∈ pix.zip (List.replicate T.allVertices.length 0) := by
      have : e ∈ pre ++ e :: post := by simp
      rw [← a1] at this
      exact this
    have hp := (List.of_mem_zip he).1
    have hc := (List.mem_replicate.1 (List.of_mem_zip he).2).2
    rw [hc] at a4
    refine ⟨fun _ => (Option.some.inj a4).symm, fun h => absurd a2 (h _ hp), fun h => absurd a2 (h _ hp)⟩
  · refine ⟨fun ⟨p, hp, hn⟩ => absurd hn (a1 rfl p hp), fun _ => .inl a3, fun _ => ⟨fun _ => a2, fun _ => a3⟩⟩
  · cases a3
  · refine ⟨fun ⟨p, hp, hn⟩ => absurd hn (a1 rfl p hp), fun _ => .inr a3, fun _ => ⟨fun h => absurd (h.symm.trans a3) hgb, fun ⟨e, he, ho⟩ => absurd ho (a2 rfl e he)⟩⟩

/-- **C85.** So is the picture of every mesh that the meshers make, if there is a triangle in it. -/
theorem C85_meshers [FloorRing K] {g : Geo K} (hg : Sound g) {b : Boundary K} (hb : Prepared g b) (segs : List Seg → List Seg) (pick : Nat → List Seg → Nat)
    (order : List (Tri × K) → List (Tri × K)) (n : Nat) (h : K) (T : Plane K)
    (hr : chewMesh g segs pick order n (Plane.new b) h = .ok T ∨ ruppertMesh g pick order n (Plane.new b) h = .ok T) (hne : T.full ≠ [])
    (keys drain : List Seg → List Seg) (hk : ∀ l, (keys l).Perm l) (hd : ∀ l, (drain l).Perm l) (tr : Trig K) {s : Nat} (h16 : 16 ≤ s) (hs : s ≤ 4294967295) :
    ∃ vis img, T.visualize keys drain = .ok vis ∧ vis.draw tr ⟨none, some s, true⟩ = .ok img ∧ img.size = s := by
  have hT : Whole g T := by
    rcases hr with hr | hr
    · exact (chew_bound hg hb hr).1
    · exact (ruppert_bound hg hb hr).1
  obtain ⟨vis, pix, img, h1, -, -, h4, h5, -⟩ := C85_mesh_picture hT hne keys drain hk hd tr h16 hs
  exact ⟨vis, img, h1, h4, h5⟩

end
end Mesh

/-! ## The picture of a displaced assemblage -/

section
open Visual Assemblage
variable {K : Type} [Field K] [LinearOrder K] [IsStrictOrderedRing K] [FloorRing K]

/-- **C85.** The picture of an assemblage with displacements: nodes at their displaced places, the sides of the elements as lines, and the elements as triangles coloured by the
values, of which the smallest counts as 0 and the largest as 1. It is drawn for every size from 16 on, if the displaced nodes do not all coincide and the values are not all equal. -/
theorem C85_deformed {n : Nat} {a : Assemblage K} (ha : Consistent a) (x y u v : Fin n → K) (hn : a.nodes = List.ofFn fun i => Point.pt2 (x i) (y i)) (scale : K)
    (val : Fin n → K) (i0 j0 : Fin n) (hne : x i0 + u i0 * scale ≠ x j0 + u j0 * scale ∨ y i0 + v i0 * scale ≠ y j0 + v j0 * scale)
    (lo hi : Fin n) (hlo : ∀ i, val lo ≤ val i) (hhi : ∀ i, val i ≤ val hi) (hlt : val lo < val hi) (tr : Trig K) (cm : Option (K → Rgb)) (mesh : Bool) {s : Nat}
    (h16 : 16 ≤ s) (hs : s ≤ 4294967295) :
    ∃ vis vis' pix img, a.visualize (List.ofFn fun i => Point.pt2 (u i) (v i)) scale = .ok vis ∧ vis.setVals (List.ofFn val) = .ok vis' ∧
      vis'.points = List.ofFn (fun i => Point.pt2 (x i + u i * scale) (y i + v i * scale)) ∧ vis'.edges.getD [] = a.edges ∧
      vis'.triangles.getD [] = a.elements.map Element.ids ∧ vis'.nodeVals = some (List.ofFn fun i => (val i - val lo) / (val hi - val lo)) ∧
      ({ vis' with imSize := s } : Visualizer K).enpixel tr = .ok pix ∧ pix.length = n ∧ vis'.draw tr ⟨cm, some s, mesh⟩ = .ok img ∧ img.size = s ∧
      ∀ q, Shown vis' ⟨cm, some s, mesh⟩ pix q (img.px q.1 q.2) := by
  have hpos : List.ofFn (fun i => Point.pt2 (x i + u i * scale) (y i + v i * scale)) =
      (List.ofFn fun i => (x i + u i * scale, y i + v i * scale)).map fun c => Point.pt2 c.1 c.2 := by rw [List.map_ofFn]; rfl
  have hnil : (List.ofFn fun i => (x i + u i * scale, y i + v i * scale)) ≠ [] := by
    intro h
    have := congrArg List.length h
    rw [List.length_ofFn, List.length_nil] at this
    exact absurd i0.2 (by omega)
  have hv : a.visualize (List.ofFn fun i => Point.pt2 (u i) (v i)) scale = .ok ((⟨2, 256, List.ofFn (fun i => Point.pt2 (x i + u i * scale) (y i + v i * scale)),
      List.replicate n 0, if a.edges = [] then none else some a.edges, if a.triangles = [] then none else some a.triangles, none, none⟩ : Visualizer K)) := by
    rw [Assemblage.visualize, C78_displaced x y u v hn scale, Res.bind_ok, hpos, Mesh.ofPoints_flat hnil, Res.bind_ok, List.length_ofFn]
    rfl
  have hmin : IsLeast {z | z ∈ List.ofFn val} (val lo) := ⟨List.mem_ofFn.2 ⟨lo, rfl⟩, fun z hz => by
    obtain ⟨i, rfl⟩ := List.mem_ofFn.1 hz; exact hlo i⟩
  have hmax : IsGreatest {z | z ∈ List.ofFn val} (val hi) := ⟨List.mem_ofFn.2 ⟨hi, rfl⟩, fun z hz => by
    obtain ⟨i, rfl⟩ := List.mem_ofFn.1 hz; exact hhi i⟩
  obtain ⟨hset, -⟩ := C68_normalise ((⟨2, 256, List.ofFn (fun i => Point.pt2 (x i + u i * scale) (y i + v i * scale)),
      List.replicate n 0, if a.edges = [] then none else some a.edges, if a.triangles = [] then none else some a.triangles, none, none⟩ : Visualizer K))
      (vals := List.ofFn val) (by simp) hmin hmax hlt
  obtain ⟨pix, img, k1, k2, k3, k4, k5⟩ := C85_picture tr _ ⟨cm, some s, mesh⟩ ((C69_flat_projection tr ({ (⟨2, 256,
      List.ofFn (fun i => Point.pt2 (x i + u i * scale) (y i + v i * scale)), List.replicate n 0, if a.edges = [] then none else some a.edges,
      if a.triangles = [] then none else some a.triangles, none, none⟩ : Visualizer K) with
      valRange := some (val lo, val hi), nodeVals := some ((List.ofFn val).map fun x => (x - val lo) / (val hi - val lo)) })).2 _ rfl hpos) (by
      refine ⟨_, List.mem_ofFn.2 ⟨i0, rfl⟩, _, List.mem_ofFn.2 ⟨j0, rfl⟩, fun heq => ?_⟩
      rcases hne with h | h
      · exact h (congrArg Prod.fst heq)
      · exact h (congrArg Prod.snd heq)) (s := s) rfl h16 hs (by
      intro ts hts t ht
      have ht' : t ∈ a.triangles := by
        simp only at hts
        split_ifs at hts
        obtain rfl := Option.some.inj hts
        exact ht
      rw [C78_triangles, List.mem_map] at ht'
      obtain ⟨el, hel, rfl⟩ := ht'
      obtain ⟨e1, e2, e3, -⟩ := ha.elements el hel
      have hl : a.nodes.length = n := by rw [hn, List.length_ofFn]
      rw [List.length_ofFn, ← hl]
      exact ⟨(List.getElem?_eq_some_iff.1 e1).1, (List.getElem?_eq_some_iff.1 e2).1, (List.getElem?_eq_some_iff.1 e3).1⟩) (by
      rintro vs ⟨⟩
      simp) (by simp +contextual [List.mem_replicate])
  refine ⟨_, _, pix, img, hv, hset, rfl, ?_, ?_, by rw [List.map_ofFn]; rfl, k1, by simpa using k2, k3, k4, k5⟩
  · show (if a.edges = [] then none else some a.edges).getD [] = a.edges
    split_ifs with h
    · exact h.symm
    · rfl
  · rw [← C78_triangles]
    show (if a.triangles = [] then none else some a.triangles).getD [] = a.triangles
    split_ifs with h
    · exact h.symm
    · rfl

end

/-! ## Concrete cases -/

/-- C85_picture: a triangle with values at its corners. -/
example : ∃ pix img, ({ Visual.corner with imSize := 16 } : Visual.Visualizer ℚ).enpixel ⟨fun _ => 1, fun _ => 0⟩ = .ok pix ∧
    Visual.corner.draw ⟨fun _ => 1, fun _ => 0⟩ ⟨none, some 16, true⟩ = .ok img ∧ ∀ q, Visual.Shown Visual.corner ⟨none, some 16, true⟩ pix q (img.px q.1 q.2) := by
  have hp : Visual.corner.project ⟨fun _ => 1, fun _ => 0⟩ = .ok [(0, 0), (1, 0), (0, 1)] :=
    (Visual.C69_flat_projection _ Visual.corner).2 [(0, 0), (1, 0), (0, 1)] rfl rfl
  obtain ⟨pix, img, h1, -, h3, -, h5⟩ := Visual.C85_picture ⟨fun _ => 1, fun _ => 0⟩ Visual.corner ⟨none, some 16, true⟩ hp
    ⟨(0, 0), by simp, (1, 0), by simp, by simp⟩ (s := 16) rfl (by decide) (by decide) (by rintro ts ⟨⟩; decide) (by rintro vs ⟨⟩; rfl) ⟨rfl, by decide⟩
  exact ⟨pix, img, h1, h3, h5⟩

/-- C85_mesh, C85_mesh_picture and C85_meshers: the rectangle of C60, which has four triangles and nine sides. -/
example : ∃ b T, Mesh.Prepared Mesh.fineGeo b ∧ Mesh.Plane.ruppertMesh Mesh.fineGeo (fun _ _ => 0) List.reverse 60 (Mesh.Plane.new b) 5 = .ok T ∧ T.full.length = 4 ∧
    ∃ vis img, T.visualize List.reverse id = .ok vis ∧ (vis.edges.getD []).length = 9 ∧ vis.draw ⟨fun _ => 1, fun _ => 0⟩ ⟨none, some 40, true⟩ = .ok img ∧ img.size = 40 := by
  obtain ⟨b, h1, h2⟩ := Mesh.passes_ok (x := Mesh.Op.run Mesh.fineGeo (Mesh.Boundary.new []) (.polygon [(0, 0), (12, 0), (12, 4), (0, 4)]))
    (fun b => Mesh.passes (Mesh.Plane.ruppertMesh Mesh.fineGeo (fun _ _ => 0) List.reverse 60 (Mesh.Plane.new b) 5) fun T => decide (T.full.length = 4) &&
      Mesh.passes (T.visualize List.reverse id) fun vis => decide ((vis.edges.getD []).length = 9)) (by decide +kernel)
  obtain ⟨T, h3, h4⟩ := Mesh.passes_ok _ h2
  obtain ⟨h4, h5⟩ := (Bool.and_eq_true _ _).mp h4
  obtain ⟨vis, h6, h7⟩ := Mesh.passes_ok _ h5
  have hp : Mesh.Prepared Mesh.fineGeo b := .step (.polygon [(0, 0), (12, 0), (12, 4), (0, 4)]) (.new []) (show 3 ≤ 4 by decide) h1
  obtain ⟨vis', img, k1, k2, k3⟩ := Mesh.C85_meshers Mesh.fineGeo_sound hp List.reverse (fun _ _ => 0) List.reverse 60 5 T (.inr h3)
    (by rintro h; rw [h] at h4; simp at h4) List.reverse id List.reverse_perm List.Perm.refl ⟨fun _ => 1, fun _ => 0⟩ (s := 40) (by decide) (by decide)
  have hvis : vis' = vis := Except.ok.inj (k1.symm.trans h6)
  subst hvis
  exact ⟨b, T, hp, h3, of_decide_eq_true h4, vis', img, k1, of_decide_eq_true h7, k2, k3⟩

/-- C85_deformed: the square of C81, with its centre lifted by one quarter, twice magnified. -/
example : ∃ vis vis' img, patchQ.visualize (List.ofFn fun i : Fin 5 => Point.pt2 0 ((![0, 0, 0, 0, 1 / 4] : Fin 5 → ℚ) i)) 2 = .ok vis ∧
    vis.setVals (List.ofFn (![1, 2, 3, 4, 5] : Fin 5 → ℚ)) = .ok vis' ∧ vis'.points[4]? = some (Point.pt2 1 (3 / 2)) ∧
    vis'.nodeVals = some [0, 1 / 4, 1 / 2, 3 / 4, 1] ∧ vis'.draw ⟨fun _ => 1, fun _ => 0⟩ ⟨none, some 30, false⟩ = .ok img ∧ img.size = 30 := by
  obtain ⟨vis, vis', pix, img, h1, h2, h3, -, -, h6, -, -, h9, h10, -⟩ := C85_deformed (n := 5) patchQ_consistent ![0, 2, 2, 0, 1] ![0, 0, 2, 2, 1] (fun _ => 0)
    ![0, 0, 0, 0, 1 / 4] rfl 2 ![1, 2, 3, 4, 5] 0 1 (by left; norm_num) 0 4 (by decide +kernel) (by decide +kernel) (by decide +kernel) ⟨fun _ => 1, fun _ => 0⟩ none false
    (s := 30) (by decide) (by decide)
  refine ⟨vis, vis', img, h1, h2, ?_, ?_, h9, h10⟩
  · rw [h3]; decide +kernel
  · rw [h6]; decide +kernel

end Bugi
