import Verif.Props.Lists
import Verif.Lemmas.Boundary
import Mathlib.Data.List.Forall2

/-! Lemmas about the text of a mesh file. -/

namespace Bugi
namespace MeshFile
open Parse

variable {K : Type} {α β : Type}

/-! ## Lines -/

/-- Lines, each after a newline. -/
def before (ls : List Txt) : Txt := ls.flatMap ('\n' :: ·)

/-- Lines, each before a newline. -/
def after (ls : List Txt) : Txt := ls.flatMap (· ++ ['\n'])

theorem before_append (l m : List Txt) : before (l ++ m) = before l ++ before m := List.flatMap_append

theorem after_append (l m : List Txt) : after (l ++ m) = after l ++ after m := List.flatMap_append

theorem after_cons (l : Txt) (m : List Txt) : after (l :: m) = l ++ '\n' :: after m := by simp [after]

theorem split_line {l : Txt} (hl : ∀ c ∈ l, c ≠ '\n') : split l = [l] := by
  induction l with
  | nil => rfl
  | cons c l ih =>
    rw [split, if_neg (hl c (by simp)), ih fun d hd => hl d (by simp [hd])]

theorem split_cons {l : Txt} (hl : ∀ c ∈ l, c ≠ '\n') (s : Txt) : split (l ++ '\n' :: s) = l :: split s := by
  induction l with
  | nil => rw [List.nil_append, split, if_pos rfl]
  | cons c l ih =>
    rw [List.cons_append, split, if_neg (hl c (by simp)), ih fun d hd => hl d (by simp [hd])]

theorem split_append (p q : Txt) : split (p ++ '\n' :: q) = split p ++ split q := by
  induction p with
  | nil => rw [List.nil_append, show split ('\n' :: q) = [] :: split q from if_pos rfl]; rfl
  | cons c p ih =>
    rw [List.cons_append, split, split, ih]
    split_ifs with h
    · rfl
    · cases hs : split p with
      | nil =>
        exfalso
        cases p with
        | nil => cases hs
        | cons d p =>
          rw [split] at hs
          split_ifs at hs
          split at hs <;> cases hs
      | cons l ls => rfl

theorem split_lines (ls : List Txt) : ∀ l : Txt, (∀ m ∈ l :: ls, ∀ c ∈ m, c ≠ '\n') → split (l ++ before ls) = l :: ls := by
  induction ls with
  | nil =>
    intro l hl
    rw [show before [] = ([] : Txt) from rfl, List.append_nil, split_line (hl l (by simp))]
  | cons m ls ih =>
    intro l hl
    rw [show before (m :: ls) = '\n' :: (m ++ before ls) from rfl, split_cons (hl l (by simp)), ih m fun n hn => hl n (by simp at hn ⊢; tauto)]

theorem clean_lines {l : Txt} {ls : List Txt} (h : ∀ m ∈ l :: ls, ∀ c ∈ m, c ≠ '\n') : clean (l ++ before ls) = after ((l :: ls).filter keep) := by
  rw [clean, split_lines ls l h]
  rfl

theorem keep_cons {c : Char} (s : Txt) (h : c ≠ '#') : keep (c :: s) = true := by
  simp [keep, List.isPrefixOf, Ne.symm h]

theorem keep_nat (n : Nat) (s : Txt) : keep (natText n ++ s) = true := by
  obtain ⟨c, l, h⟩ := List.exists_cons_of_ne_nil (natText_ne n)
  have := natText_digits n c (by rw [h]; simp)
  rw [h, List.cons_append]
  exact keep_cons _ (by rintro rfl; exact absurd this (by decide))

theorem each_lines {xs : List α} {line : α → Txt} {f : α → Txt → Res Txt} (h : ∀ x ∈ xs, ∀ res, f x res = .ok (res ++ '\n' :: line x)) (res : Txt) :
    each xs res f = .ok (res ++ before (xs.map line)) := by
  induction xs generalizing res with
  | nil =>
    rw [each_nil]
    simp [before]
  | cons x xs ih =>
    rw [each_cons, h x (by simp), Res.bind_ok, ih fun y hy => h y (by simp [hy])]
    simp [before]

theorem foldl_lines (xs : List α) (line : α → Txt) (res : Txt) :
    xs.foldl (fun res x => res ++ '\n' :: line x) res = res ++ before (xs.map line) := by
  induction xs generalizing res with
  | nil => simp [before]
  | cons x xs ih =>
    rw [List.foldl_cons, ih]
    simp [before]

theorem nat_no_newline (n : Nat) : ∀ c ∈ natText n, c ≠ '\n' := by
  rintro c hc rfl
  exact absurd (natText_digits n '\n' hc) (by decide)

/-! ## Lists -/

theorem lines_zip {f : Parser α} (r : Txt) : ∀ (es : List (Txt × α)) (i : Nat), (∀ e ∈ es, ∀ s, f (e.1 ++ '\n' :: s) = .ok (e.2, '\n' :: s)) →
    Lines f i (after ((es.zipIdx i).map fun e => natText e.2 ++ ' ' :: e.1.1) ++ r) (es.map Prod.snd) r := by
  intro es
  induction es with
  | nil => exact fun i _ => .nil i r
  | cons e es ih =>
    intro i h
    have := ih (i + 1) fun e' he' => h e' (by simp [he'])
    have h1 := h e (by simp) (after ((es.zipIdx (i + 1)).map fun e => natText e.2 ++ ' ' :: e.1.1) ++ r)
    have hl := Lines.cons (natText_isNat i) h1 this
    simpa [after] using hl

theorem plain_map {f : Parser α} (r : Txt) (es : List (Txt × α)) (h : ∀ e ∈ es, ∀ s, f (e.1 ++ '\n' :: s) = .ok (e.2, '\n' :: s)) :
    Plain f (after (es.map Prod.fst) ++ r) (es.map Prod.snd) r := by
  induction es with
  | nil => exact .nil r
  | cons e es ih =>
    have := ih fun e' he' => h e' (by simp [he'])
    have hl := Plain.cons (h e (by simp) (after (es.map Prod.fst) ++ r)) this
    simpa [after] using hl

theorem indexed_section {f : Parser α} {name : Txt} {es : List (Txt × α)} {ls : List Txt} (r : Txt)
    (hls : ls = es.zipIdx.map fun e => natText e.2 ++ ' ' :: e.1.1) (hn : es.length < 2 ^ 64)
    (h : ∀ e ∈ es, ∀ s, f (e.1 ++ '\n' :: s) = .ok (e.2, '\n' :: s)) :
    sectionOf name (monotonicList f) (after ([('$' :: name), "count ".toList ++ natText es.length] ++ ls ++ ["$End".toList ++ name]) ++ r) = .ok (es.map Prod.snd, r) := by
  subst hls
  refine C71_section.2 ⟨_, by simp only [List.cons_append, List.nil_append, after_cons, List.append_assoc]; rfl, ?_⟩
  refine C71_indexed.2 ⟨by simpa using hn, natText es.length, _, by simpa using natText_isNat es.length, by simp only [List.append_assoc]; rfl, ?_⟩
  have := lines_zip (f := f) ("$End".toList ++ name ++ '\n' :: r) es 0 h
  simpa only [after_append, after_cons, List.append_assoc, List.cons_append, show after [] = [] from rfl, List.nil_append] using this

theorem plain_section {f : Parser α} {name : Txt} {es : List (Txt × α)} {ls : List Txt} (r : Txt) (hls : ls = es.map Prod.fst) (hn : es.length < 2 ^ 64)
    (h : ∀ e ∈ es, ∀ s, f (e.1 ++ '\n' :: s) = .ok (e.2, '\n' :: s)) :
    sectionOf name (freeList f) (after ([('$' :: name), "count ".toList ++ natText es.length] ++ ls ++ ["$End".toList ++ name]) ++ r) = .ok (es.map Prod.snd, r) := by
  subst hls
  refine C71_section.2 ⟨_, by simp only [List.cons_append, List.nil_append, after_cons, List.append_assoc]; rfl, ?_⟩
  refine C71_free.2 ⟨by simpa using hn, natText es.length, _, by simpa using natText_isNat es.length, by simp only [List.append_assoc]; rfl, ?_⟩
  have := plain_map (f := f) ("$End".toList ++ name ++ '\n' :: r) es h
  simpa only [after_append, after_cons, List.append_assoc, List.cons_append, show after [] = [] from rfl, List.nil_append] using this

/-! ## Entries -/

theorem coords_ok [Zero K] (T : Text K) {t u : Txt} {x y : K} (ht : IsNumber t) (hu : IsNumber u) (hx : T.rd t = some x) (hy : T.rd u = some y) (hne : t ≠ []) (s : Txt) :
    coords T (t ++ '/' :: u ++ '\n' :: s) = .ok (Point.pt2 x y, '\n' :: s) := by
  refine pmapO_iff.2 ⟨[x, y], ?_, rfl⟩
  have := sepList1_complete (c := '/') (f := double T.rd) (S := Ends more) (r := '\n' :: s) (fun r => ends_cons r (by decide)) (ends_cons s (by decide))
    (.inl (by simp)) (t, x) [(u, y)] (by
      intro e he r hr
      simp only [List.mem_cons, List.not_mem_nil, or_false] at he
      rcases he with rfl | rfl
      · exact double_complete ht hx hr
      · exact double_complete hu hy hr) hne
  have h0 := sepList0_ne this
  simpa using h0

theorem numbers_ok {a b c : Nat} (ha : a < 2 ^ 64) (hb : b < 2 ^ 64) (hc : c < 2 ^ 64) (s : Txt) :
    numbers (natText a ++ '/' :: natText b ++ '/' :: natText c ++ '\n' :: s) = .ok ([a, b, c], '\n' :: s) := by
  have := sepList1_complete (c := '/') (f := u64) (S := Ends Char.isDigit) (r := '\n' :: s) (fun r => ends_cons r (by decide)) (ends_cons s (by decide))
    (.inl (by simp)) (natText a, a) [(natText b, b), (natText c, c)] (by
      intro e he r hr
      simp only [List.mem_cons, List.not_mem_nil, or_false] at he
      rcases he with rfl | rfl | rfl
      · exact u64_natText ha hr
      · exact u64_natText hb hr
      · exact u64_natText hc hr) (natText_ne a)
  have h0 := sepList0_ne this
  simpa [numbers] using h0

theorem constraint_ok (T : Text K) {n : Nat} (hn : n < 2 ^ 64) {t : Txt} {c : Constraint K} (ht : Constraint.ofText T t = some c) (hl : ∀ d ∈ t, isEol d = false) (s : Txt) :
    constraint T (natText n ++ ' ' :: t ++ '\n' :: s) = .ok ((n, c), '\n' :: s) := by
  refine both_iff.2 ⟨t ++ '\n' :: s, terminated_iff.2 ?_, pmapO_iff.2 ⟨t, notLineEnding_complete hl (.inr ⟨s, rfl⟩), ht⟩⟩
  have := u64_natText hn (r := ' ' :: (t ++ '\n' :: s)) (ends_cons _ (by decide))
  simpa using this

theorem force_ok [Zero K] (T : Text K) {n : Nat} (hn : n < 2 ^ 64) {t : Txt} {p : Point K} (ht : ∀ s, coords T (t ++ '\n' :: s) = .ok (p, '\n' :: s)) (s : Txt) :
    force T (natText n ++ ' ' :: t ++ '\n' :: s) = .ok ((n, p), '\n' :: s) := by
  refine both_iff.2 ⟨t ++ '\n' :: s, terminated_iff.2 ?_, ht s⟩
  have := u64_natText hn (r := ' ' :: (t ++ '\n' :: s)) (ends_cons _ (by decide))
  simpa using this

theorem distForce_ok [Zero K] (T : Text K) {n m : Nat} (hn : n < 2 ^ 64) (hm : m < 2 ^ 64) {t : Txt} {p : Point K} (ht : ∀ s, coords T (t ++ '\n' :: s) = .ok (p, '\n' :: s)) (s : Txt) :
    distForce T (natText n ++ ' ' :: natText m ++ ' ' :: t ++ '\n' :: s) = .ok ((n, m, p), '\n' :: s) := by
  refine both_iff.2 ⟨natText m ++ ' ' :: (t ++ '\n' :: s), terminated_iff.2 ?_, both_iff.2 ⟨t ++ '\n' :: s, terminated_iff.2 ?_, ht s⟩⟩
  · have := u64_natText hn (r := ' ' :: (natText m ++ ' ' :: (t ++ '\n' :: s))) (ends_cons _ (by decide))
    simpa using this
  · have := u64_natText hm (r := ' ' :: (t ++ '\n' :: s)) (ends_cons _ (by decide))
    simpa using this

end MeshFile
end Bugi
