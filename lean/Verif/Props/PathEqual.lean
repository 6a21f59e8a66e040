import Verif.Props.PathSymmetry
import Verif.Props.FloatPath

/-!
# When modes `actual` and `full` of `path` are the same (C107), and what that means for `full` (C87)
-/

namespace Verif.Spec

/-- From `x` to `y` at most one coordinate changes. -/
def OneAxis (x y : List Int) : Prop := ∃ i, ∀ j, j ≠ i → y.getD j 0 = x.getD j 0

end Verif.Spec

namespace Verif.Props

open Verif Verif.Path Outcome Spec

section Equal

variable {K : Type} [Zero K] [One K] [Add K] [Sub K] [Neg K] [Mul K] [Div K] [NatCast K] [IntCast K]
  [DecidableEq K] [LT K] [DecidableLT K]

/-- The update of an axis. -/
private def upd (tm : K) (a : Axis K) : Axis K := if a.selected tm then a.advance else a

private theorem upd_v (tm : K) (a : Axis K) : (upd tm a).v = a.v := by
  unfold upd
  split <;> rfl

private theorem upd_c (h0 : ((0 : Int) : K) = 0) (tm : K) (a : Axis K) :
    (upd tm a).c = a.c ↔ a.selected tm = false := by
  unfold upd
  by_cases h : a.selected tm = true
  · rw [if_pos h]
    simp only [h, Bool.true_eq_false, iff_false]
    show a.c + (a.xb - a.xa).sign ≠ a.c
    unfold Axis.selected at h
    simp only [Bool.and_eq_true, decide_eq_true_eq] at h
    have : a.xb - a.xa ≠ 0 := by
      intro hc
      apply h.1
      unfold Axis.v
      rw [hc, h0]
    have := mt Int.sign_eq_zero_iff_zero.1 this
    omega
  · rw [if_neg h]
    simpa using h

private theorem fullRows_axes (tm : K) : ∀ (todo done : List (Axis K)),
    (fullRows tm done todo).1 = done ++ todo.map (upd tm) ∧
    (fullRows tm done todo).2.length = todo.countP (·.selected tm)
  | [], done => by simp [fullRows]
  | a :: todo, done => by
    by_cases ha : a.selected tm = true
    · obtain ⟨h1, h2⟩ := fullRows_axes tm todo (done ++ [a.advance])
      have e : upd tm a = a.advance := by simp [upd, ha]
      simp only [fullRows, ha, if_true, List.map_cons, e]
      rw [h1, List.append_assoc, List.length_cons, h2, List.countP_cons]
      simp [ha]
    · obtain ⟨h1, h2⟩ := fullRows_axes tm todo (done ++ [a])
      have e : upd tm a = a := by simp [upd, ha]
      simp only [fullRows, ha, List.map_cons, e]
      simp only [Bool.false_eq_true, if_false]
      rw [h1, List.append_assoc, h2, List.countP_cons]
      simp [ha]

private theorem fullRows_one (tm : K) : ∀ (todo done : List (Axis K)), todo.countP (·.selected tm) = 1 →
    (fullRows tm done todo).2 = [row (done ++ todo.map (upd tm))]
  | [], done => by simp
  | a :: todo, done => by
    intro h
    by_cases ha : a.selected tm = true
    · have hz : todo.countP (·.selected tm) = 0 := by
        rw [List.countP_cons] at h
        simp only [ha, if_true] at h
        omega
      have hn := (fullRows_axes tm todo (done ++ [a.advance])).2
      rw [hz] at hn
      have hm : todo.map (upd tm) = todo := by
        rw [List.countP_eq_zero] at hz
        conv_rhs => rw [← List.map_id todo]
        apply List.map_congr_left
        intro b hb
        unfold upd
        rw [if_neg (hz b hb)]
        rfl
      have e : upd tm a = a.advance := by simp [upd, ha]
      simp only [fullRows, ha, if_true, List.map_cons, e]
      rw [List.length_eq_zero_iff.1 hn, hm]
    · have h' : todo.countP (·.selected tm) = 1 := by
        rw [List.countP_cons] at h
        simpa [ha] using h
      have e : upd tm a = a := by simp [upd, ha]
      simp only [fullRows, ha, List.map_cons, e]
      simp only [Bool.false_eq_true, if_false]
      rw [fullRows_one tm todo (done ++ [a]) h', List.append_assoc]
      rfl

private theorem row_same (h0 : ((0 : Int) : K) = 0) (tm : K) : ∀ axes : List (Axis K),
    (∀ j, (row (axes.map (upd tm))).getD j 0 = (row axes).getD j 0) ↔ axes.countP (·.selected tm) = 0
  | [] => by simp [row]
  | a :: axes => by
    rw [List.countP_cons]
    constructor
    · intro h
      have ha : (upd tm a).c = a.c := h 0
      have hr := (row_same h0 tm axes).1 fun j => h (j + 1)
      rw [upd_c h0] at ha
      rw [hr]
      simp [ha]
    · intro h
      have hr : axes.countP (·.selected tm) = 0 := by omega
      have ha : a.selected tm = false := by
        by_contra hc
        simp [hc] at h
      intro j
      cases j with
      | zero => exact (upd_c h0 tm a).2 ha
      | succ j => exact (row_same h0 tm axes).2 hr j

/-- The rows before and after an update differ in at most one coordinate if at most one axis was selected. -/
private theorem oneAxis_iff (h0 : ((0 : Int) : K) = 0) (tm : K) : ∀ axes : List (Axis K),
    OneAxis (row axes) (row (axes.map (upd tm))) ↔ axes.countP (·.selected tm) ≤ 1
  | [] => by simp [row, OneAxis]
  | a :: axes => by
    rw [List.countP_cons]
    have hd : (row ((a :: axes).map (upd tm))).getD 0 0 = (row (a :: axes)).getD 0 0 ↔
        a.selected tm = false := upd_c h0 tm a
    by_cases ha : a.selected tm = true
    · simp only [ha, if_true]
      constructor
      · rintro ⟨i, hi⟩
        have : i = 0 := by
          by_contra hc
          rw [hd.1 (hi 0 fun e => hc e.symm)] at ha
          simp at ha
        subst this
        have := (row_same h0 tm axes).1 fun j => hi (j + 1) (by omega)
        omega
      · intro h
        refine ⟨0, fun j hj => ?_⟩
        obtain ⟨j, rfl⟩ : ∃ k, j = k + 1 := ⟨j - 1, by omega⟩
        exact (row_same h0 tm axes).2 (by omega) j
    · have ha' : a.selected tm = false := by simpa using ha
      simp only [ha', Bool.false_eq_true, if_false, Nat.add_zero]
      rw [← oneAxis_iff h0 tm axes]
      constructor
      · rintro ⟨i, hi⟩
        exact ⟨i - 1, fun j hj => hi (j + 1) (by omega)⟩
      · rintro ⟨i, hi⟩
        refine ⟨i + 1, fun j hj => ?_⟩
        cases j with
        | zero => exact hd.2 ha'
        | succ j => exact hi j (by omega)

private theorem foldl_mem : ∀ (ts : List K) (t : K), ts.foldl (fun m t => if t < m then t else m) t ∈ t :: ts
  | [], t => by simp
  | s :: ts, t => by
    rw [List.foldl_cons]
    have := foldl_mem ts (if s < t then s else t)
    by_cases h : s < t
    · simp only [h, if_true] at this ⊢
      simp only [List.mem_cons] at this ⊢
      tauto
    · simp only [h, if_false] at this ⊢
      simp only [List.mem_cons] at this ⊢
      tauto

private theorem some_selected (hK : ∀ x : K, fabs (x - x) < 1 / (1000000 : Nat)) (junk : K)
    {axes : List (Axis K)} (h : ∃ a ∈ axes, a.v ≠ 0) : 1 ≤ axes.countP (·.selected (tmin junk axes)) := by
  obtain ⟨a, ha, hv⟩ := h
  have hm : a.t ∈ (axes.filter fun a => a.v ≠ 0).map Axis.t :=
    List.mem_map.2 ⟨a, List.mem_filter.2 ⟨ha, by simpa using hv⟩, rfl⟩
  have key : ∃ b ∈ axes, b.v ≠ 0 ∧ b.t = tmin junk axes := by
    have : tmin junk axes ∈ (axes.filter fun a => a.v ≠ 0).map Axis.t := by
      unfold tmin
      generalize (axes.filter fun a => a.v ≠ 0).map Axis.t = l at hm ⊢
      match l with
      | [] => simp at hm
      | t :: ts => exact foldl_mem ts t
    obtain ⟨b, hb, eb⟩ := List.mem_map.1 this
    obtain ⟨hb1, hb2⟩ := List.mem_filter.1 hb
    exact ⟨b, hb1, by simpa using hb2, eb⟩
  obtain ⟨b, hb, hbv, eb⟩ := key
  apply List.countP_pos_iff.2
  refine ⟨b, hb, ?_⟩
  unfold Axis.selected
  rw [← eb]
  simp only [hK, decide_true, Bool.and_true, decide_eq_true_eq]
  exact hbv

private theorem loops_equal (h0 : ((0 : Int) : K) = 0) (hK : ∀ x : K, fabs (x - x) < 1 / (1000000 : Nat))
    (junk : K) : ∀ (fuel : Nat) (axes : List (Axis K)) (ret ret' r : List (List Int)), (∃ a ∈ axes, a.v ≠ 0) →
      lineLoop actualRows junk fuel axes ret = ok r →
      ∃ p q, r = ret ++ p ∧ lineLoop (fun tm => fullRows tm []) junk fuel axes ret' = ok (ret' ++ q) ∧
        p.length ≤ q.length ∧ ((row axes :: p).IsChain OneAxis → q = p) ∧
        (p.length = q.length → (row axes :: p).IsChain OneAxis)
  | 0, _, _, _, _, _, h => by simp [lineLoop] at h
  | fuel + 1, axes, ret, ret', r, hv, h => by
    have hs := some_selected hK junk hv
    obtain ⟨h1, h2⟩ := fullRows_axes (tmin junk axes) axes []
    rw [List.nil_append] at h1
    have h3 := fullRows_one (tmin junk axes) axes []
    rw [List.nil_append] at h3
    have h4 := oneAxis_iff h0 (tmin junk axes) axes
    have ha : (actualRows (tmin junk axes) axes) =
        (axes.map (upd (tmin junk axes)), [row (axes.map (upd (tmin junk axes)))]) := rfl
    have hplace : ∀ l : List (Axis K), row (l.map fun a => a.place (tmin junk axes)) = row l := by
      intro l
      unfold row
      rw [List.map_map]
      rfl
    rw [lineLoop] at h
    simp only [ha] at h
    rw [lineLoop]
    simp only [h1]
    by_cases hall : (((axes.map (upd (tmin junk axes))).map fun a => a.place (tmin junk axes)).all
        fun a => a.c == a.xb) = true
    · rw [if_pos hall] at h ⊢
      have h := Outcome.ok.inj h
      refine ⟨_, (fullRows (tmin junk axes) [] axes).2, h.symm, rfl, ?_, ?_, ?_⟩
      · rw [h2]
        exact hs
      · intro hch
        have := h4.1 (List.isChain_cons_cons.1 hch).1
        exact h3 (by omega)
      · intro hlen
        rw [h2, List.length_singleton] at hlen
        exact List.isChain_cons_cons.2 ⟨h4.2 (by omega), List.IsChain.singleton _⟩
    · rw [if_neg hall] at h ⊢
      have hv' : ∃ a ∈ (axes.map (upd (tmin junk axes))).map fun a => a.place (tmin junk axes), a.v ≠ 0 := by
        obtain ⟨a, ha, hva⟩ := hv
        refine ⟨(upd (tmin junk axes) a).place (tmin junk axes), ?_, ?_⟩
        · exact List.mem_map.2 ⟨_, List.mem_map.2 ⟨a, ha, rfl⟩, rfl⟩
        · show (upd (tmin junk axes) a).v ≠ 0
          rw [upd_v]
          exact hva
      obtain ⟨p, q, e1, e2, e3, e4, e5⟩ := loops_equal h0 hK junk fuel _ _
        (ret' ++ (fullRows (tmin junk axes) [] axes).2) r hv' h
      rw [hplace] at e4 e5
      refine ⟨row (axes.map (upd (tmin junk axes))) :: p, (fullRows (tmin junk axes) [] axes).2 ++ q, ?_, ?_, ?_, ?_, ?_⟩
      · rw [e1, List.append_assoc]
        rfl
      · rw [e2, List.append_assoc]
      · rw [List.length_append, h2, List.length_cons]
        omega
      · intro hch
        obtain ⟨g1, g2⟩ := List.isChain_cons_cons.1 hch
        have := h4.1 g1
        rw [h3 (by omega), e4 g2]
        rfl
      · intro hlen
        rw [List.length_append, h2, List.length_cons] at hlen
        exact List.isChain_cons_cons.2 ⟨h4.2 (by omega), e5 (by omega)⟩

private theorem modes_equal (h0 : ((0 : Int) : K) = 0) (hK : ∀ x : K, fabs (x - x) < 1 / (1000000 : Nat))
    (hz : ∀ z : Int, z ≠ 0 → (z : K) ≠ 0) (junk : K) (fuel : Nat) {x0 x1 : List Int}
    (h3 : x0.length ≤ 3) (hl : x0.length = x1.length) (hne : x0 ≠ x1) {p : List (List Int)}
    (hp : path junk fuel x0 x1 .actual = ok p) :
    path junk fuel x0 x1 .full = ok p ↔ p.IsChain OneAxis := by
  have hp : line actualRows junk fuel x0 x1 = ok p := hp
  show line (fun tm => fullRows tm []) junk fuel x0 x1 = ok p ↔ _
  unfold line at hp ⊢
  have hc : ¬ (x0.length > 3 ∨ x1.length < x0.length) := by omega
  rw [if_neg hc] at hp ⊢
  have hv : ∃ a ∈ List.zipWith (axis K) x0 x1, a.v ≠ 0 := by
    have : ∃ i, ∃ (h : i < x0.length) (h' : i < x1.length), x0[i] ≠ x1[i] := by
      by_contra hcon
      apply hne
      apply List.ext_getElem hl
      intro i h h'
      by_contra hi
      exact hcon ⟨i, h, h', hi⟩
    obtain ⟨i, h, h', hi⟩ := this
    refine ⟨axis K x0[i] x1[i], ?_, hz _ (by show x1[i] - x0[i] ≠ 0; omega)⟩
    rw [List.mem_iff_getElem]
    exact ⟨i, by simp; omega, by simp⟩
  obtain ⟨r, q, e1, e2, -, e4, e5⟩ := loops_equal h0 hK junk fuel _ _ [row (List.zipWith (axis K) x0 x1)] _ hv hp
  dsimp only at e2 ⊢
  rw [e2, e1]
  constructor
  · intro h
    have h := Outcome.ok.inj h
    rw [List.append_cancel_left_eq] at h
    exact e5 (by rw [h])
  · intro h
    rw [e4 h]

end Equal

/-- **C107**: the path of mode `full` is that of mode `actual` exactly if each row of the latter differs from
the row before it in one coordinate. -/
theorem C107_equal (junk : ℚ) (fuel : Nat) {x0 x1 : List Int} (h3 : x0.length ≤ 3)
    (hl : x0.length = x1.length) (hne : x0 ≠ x1) {p : List (List Int)}
    (hp : path junk fuel x0 x1 .actual = ok p) :
    path junk fuel x0 x1 .full = ok p ↔ p.IsChain OneAxis :=
  modes_equal (by simp) (fun x => by rw [sub_self]; simp [fabs]) (fun z hz => by exact_mod_cast hz) junk fuel
    h3 hl hne hp

/-- **C107**, the same in `double`. -/
theorem C107_equal_double {rnd : ℚ → ℚ} (hr : Rounding rnd) (junk : Fl rnd) (fuel : Nat) {x0 x1 : List Int}
    (h3 : x0.length ≤ 3) (hl : x0.length = x1.length) (hne : x0 ≠ x1) {p : List (List Int)}
    (hp : path junk fuel x0 x1 .actual = ok p) :
    path junk fuel x0 x1 .full = ok p ↔ p.IsChain OneAxis := by
  refine modes_equal ?_ (fun x => ?_) (fun z hz h => ?_) junk fuel h3 hl hne hp
  · apply Fl.ext
    show rnd ((0 : Int) : ℚ) = 0
    rw [Int.cast_zero, hr.zero]
  · have e : x - x = (0 : Fl rnd) := by
      apply Fl.ext
      show rnd (x.val - x.val) = 0
      rw [sub_self, hr.zero]
    rw [e]
    have e0 : fabs (0 : Fl rnd) = 0 := by
      unfold fabs
      rw [if_neg]
      exact lt_irrefl (0 : ℚ)
    rw [e0]
    show (0 : ℚ) < rnd (1 / rnd ((1000000 : Nat) : ℚ))
    rw [hr.nat (by norm_num)]
    have := hr.rel (1 / ((1000000 : Nat) : ℚ))
    rw [abs_le] at this
    norm_num at this ⊢
    linarith [this.1]
  · have e : rnd (z : ℚ) = 0 := congrArg Fl.val h
    have := hr.rel z
    rw [e, zero_sub, abs_neg] at this
    have hz' : (0 : ℚ) < |(z : ℚ)| := abs_pos.2 (by exact_mod_cast hz)
    have h2 : |(z : ℚ)| / 2 ^ 53 < |(z : ℚ)| := by
      apply div_lt_self hz'
      norm_num
    linarith

/-- `OneAxis` of points of the same dimension does not depend on the order of the axes. -/
theorem oneAxis_permute {n : Nat} {σ : List Nat} (hσ : σ.Perm (List.range n)) {x y : List Int}
    (h : OneAxis x y) : OneAxis (permutePt σ x) (permutePt σ y) := by
  obtain ⟨i, hi⟩ := h
  have hg : ∀ (z : List Int) j, (permutePt σ z).getD j 0 = if h : j < σ.length then z.getD σ[j] 0 else 0 := by
    intro z j
    by_cases h : j < σ.length
    · simp [permutePt, List.getD, h]
    · simp [permutePt, List.getD, h]
  refine ⟨σ.idxOf i, fun j hj => ?_⟩
  rw [hg, hg]
  by_cases h : j < σ.length
  · rw [dif_pos h, dif_pos h]
    apply hi
    intro hc
    apply hj
    rw [← hc, (hσ.nodup_iff.2 List.nodup_range).idxOf_getElem]
  · rw [dif_neg h, dif_neg h]

/-- **C87** for mode `full`, as far as the order of the axes does not matter: if the path of mode `actual` changes one
coordinate per row, permuting the axes permutes the axes of the path of mode `full`. Missing: the lines through
edges and corners of pixels, see `C87_violated`. -/
theorem C87_permute_full_partial (junk : ℚ) (fuel : Nat) {x0 x1 : List Int} {σ : List Nat} (h3 : x0.length ≤ 3)
    (hl : x0.length = x1.length) (hσ : σ.Perm (List.range x0.length)) (hne : x0 ≠ x1) {p : List (List Int)}
    (hp : path junk fuel x0 x1 .actual = ok p) (hone : p.IsChain OneAxis) :
    path junk fuel x0 x1 .full = ok p ∧
    path junk fuel (permutePt σ x0) (permutePt σ x1) .full = ok (p.map fun x => permutePt σ x) := by
  refine ⟨(C107_equal junk fuel h3 hl hne hp).2 hone, ?_⟩
  have hlen : ∀ z : List Int, (permutePt σ z).length = x0.length := by
    intro z
    have := hσ.length_eq
    simpa [permutePt] using this
  have hp' := C87_permute_partial junk fuel h3 hl hσ (mode := .actual) (by simp) (by simp)
  rw [hp] at hp'
  refine (C107_equal junk fuel (by rw [hlen]; exact h3) (by rw [hlen, hlen]) ?_ hp').2 ?_
  · intro hc
    apply hne
    apply List.ext_getElem hl
    intro i h h'
    have hm : i ∈ σ := hσ.mem_iff.2 (List.mem_range.2 h)
    obtain ⟨k, hk, e⟩ := List.mem_iff_getElem.1 hm
    have := congrArg (fun z => z.getD k 0) hc
    simpa [permutePt, List.getD, hk, e, h, h'] using this
  · rw [List.isChain_map]
    exact hone.imp fun x y h => oneAxis_permute hσ h

instance : DecidableRel OneAxis := fun x y =>
  decidable_of_iff (∃ i ∈ List.range (x.length + y.length + 1), ∀ j ∈ List.range (x.length + y.length), j ≠ i →
      y.getD j 0 = x.getD j 0) (by
    constructor
    · rintro ⟨i, -, h⟩
      refine ⟨i, fun j hj => ?_⟩
      by_cases hlt : j < x.length + y.length
      · exact h j (List.mem_range.2 hlt) hj
      · simp [List.getD, show x.length ≤ j by omega, show y.length ≤ j by omega]
    · rintro ⟨i, h⟩
      by_cases hi : i < x.length + y.length + 1
      · exact ⟨i, List.mem_range.2 hi, fun j _ hj => h j hj⟩
      · exact ⟨x.length + y.length, List.mem_range.2 (by omega), fun j hj _ => h j (by
          have := List.mem_range.1 hj
          omega)⟩)

/-- To `(1, 2)` the line does not pass through a corner, to `(1, 3)` it does. -/
example : path (0 : ℚ) 100 [0, 0] [1, 2] .actual = ok [[0, 0], [0, 1], [1, 1], [1, 2]] ∧
    [[0, 0], [0, 1], [1, 1], [1, 2]].IsChain OneAxis ∧
    path (0 : ℚ) 100 [0, 0] [2, 1] .full = ok [[0, 0], [1, 0], [1, 1], [2, 1]] ∧
    path (0 : ℚ) 100 [0, 0] [1, 3] .actual = ok [[0, 0], [0, 1], [1, 2], [1, 3]] ∧
    ¬ [[0, 0], [0, 1], [1, 2], [1, 3]].IsChain OneAxis := by decide +kernel

end Verif.Props
