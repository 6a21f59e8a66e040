import Verif.Lemmas.DilateInv
import Verif.Lemmas.Average

/-! # From dilate to its iterations, for images of one, two and three dimensions -/

namespace Verif.Dilate

open Verif Outcome Spec Cluster Nd Ens
open scoped Classical

/-! ### Reachability in one, two and three dimensions -/

theorem raise_inj {x y : List Int} (h : x.length ≤ 3) (e : y.length = x.length) (hr : raise x = raise y) : x = y := by
  cases same3 h e <;> simp [raise] at hr ⊢ <;> tauto

theorem offset_length {k : Nd Int} {d : List Int} (h : Offset k d) : d.length = k.shape.length := by
  obtain ⟨i, hi, -, rfl⟩ := h
  exact displacement_length (inbox_length (mem_pixels.1 hi))

theorem offset_raise {k : Nd Int} (h3 : k.shape.length ≤ 3) {d : List Int} :
    Offset k.atleast3d d ↔ ∃ d', Offset k d' ∧ d = raise d' := by
  constructor
  · rintro ⟨i, hi, hv, rfl⟩
    have hi' : i ∈ pixels (shape3 k.shape) := hi
    rw [pixels_raise h3, List.mem_map] at hi'
    obtain ⟨i, hi', rfl⟩ := hi'
    have hl := inbox_length (mem_pixels.1 hi')
    refine ⟨_, ⟨i, hi', ?_, rfl⟩, displacement_raise h3 hl⟩
    rw [← val_atleast3d h3 hl]
    exact hv
  · rintro ⟨_, ⟨i, hi, hv, rfl⟩, rfl⟩
    have hl := inbox_length (mem_pixels.1 hi)
    refine ⟨raise i, ?_, ?_, displacement_raise h3 hl⟩
    · show raise i ∈ pixels (shape3 k.shape)
      rw [pixels_raise h3]
      exact List.mem_map_of_mem hi
    · rw [val_atleast3d h3 hl]
      exact hv

theorem target_raise {periodic : Bool} {s : List Nat} {x d : List Int} (h3 : s.length ≤ 3)
    (hx : x.length = s.length) (hd : d.length = s.length) :
    target periodic (shape3 s) (raise x) (raise d) = raise (target periodic s x d) := by
  unfold target
  rw [move_raise (by omega) (by omega)]
  split
  · exact wrap_raise h3 (by rw [move_length (by omega), hx])
  · rfl

theorem target_length {periodic : Bool} {s : List Nat} {x d : List Int}
    (hx : x.length = s.length) (hd : d.length = s.length) : (target periodic s x d).length = s.length := by
  have e : (move x d).length = s.length := by rw [move_length (by omega), hx]
  unfold target
  split
  · exact wrap_length e
  · exact e

theorem mem_pixels_raise {s : List Nat} {x : List Int} (h3 : s.length ≤ 3) (hx : x.length = s.length) :
    raise x ∈ pixels (shape3 s) ↔ x ∈ pixels s := by
  rw [mem_pixels, mem_pixels, inbox_raise h3 hx]

theorem reach_raise {periodic : Bool} {s : List Nat} {k : Nd Int} (h3 : s.length ≤ 3)
    (hk : k.shape.length = s.length) {x y : List Int} (hx : x.length = s.length) {n : Nat}
    (h : Reach periodic s k x n y) :
    y.length = s.length ∧ Reach periodic (shape3 s) k.atleast3d (raise x) n (raise y) := by
  induction h with
  | here n => exact ⟨hx, .here n⟩
  | step n y d _ hd ht ih =>
    obtain ⟨hy, ih⟩ := ih
    have hdl := (offset_length hd).trans hk
    refine ⟨target_length hy hdl, ?_⟩
    rw [← target_raise h3 hy hdl]
    refine .step n _ _ ih ((offset_raise (by omega)).2 ⟨d, hd, rfl⟩) ?_
    rw [target_raise h3 hy hdl, mem_pixels_raise h3 (target_length hy hdl)]
    exact ht

theorem reach_lower {periodic : Bool} {s : List Nat} {k : Nd Int} (h3 : s.length ≤ 3)
    (hk : k.shape.length = s.length) {x z : List Int} (hx : x.length = s.length) {n : Nat}
    (h : Reach periodic (shape3 s) k.atleast3d (raise x) n z) :
    ∃ y, z = raise y ∧ y.length = s.length ∧ Reach periodic s k x n y := by
  induction h with
  | here n => exact ⟨x, rfl, hx, .here n⟩
  | step n y d _ hd ht ih =>
    obtain ⟨y, rfl, hy, ih⟩ := ih
    obtain ⟨d, hd', rfl⟩ := (offset_raise (by omega)).1 hd
    clear hd
    rename' hd' => hd
    have hdl := (offset_length hd).trans hk
    rw [target_raise h3 hy hdl] at ht ⊢
    refine ⟨_, rfl, target_length hy hdl, .step n y d ih hd ?_⟩
    rwa [mem_pixels_raise h3 (target_length hy hdl)] at ht

/-! ### dilate -/

theorem mem_toList {f : Nd Int} {v : Int} : v ∈ f.toList ↔ ∃ x ∈ pixels f.shape, val f x = v := by
  unfold Nd.toList
  rw [List.mem_map]
  constructor
  · rintro ⟨k, hk, rfl⟩
    rw [List.mem_range, Nd.size, prodShape_eq] at hk
    obtain ⟨h1, h2⟩ := unravel_inbox hk
    exact ⟨_, mem_pixels.2 h1, by unfold val; rw [h2]⟩
  · rintro ⟨x, hx, rfl⟩
    refine ⟨_, ?_, rfl⟩
    rw [List.mem_range, Nd.size, prodShape_eq]
    exact flat_lt (mem_pixels.1 hx)

theorem foldl_max_le {l : List Int} : ∀ {a b : Int}, l.foldl max a ≤ b ↔ a ≤ b ∧ ∀ x ∈ l, x ≤ b := by
  induction l with
  | nil => intro a b; simp
  | cons y l ih =>
    intro a b
    rw [List.foldl_cons, ih, List.forall_mem_cons]
    constructor
    · rintro ⟨h1, h2⟩
      exact ⟨by omega, by omega, h2⟩
    · rintro ⟨h1, h2, h3⟩
      exact ⟨by omega, h3⟩

theorem foldl_max_nat {l : List Nat} : ∀ {a b : Nat}, l.foldl max a ≤ b ↔ a ≤ b ∧ ∀ x ∈ l, x ≤ b := by
  induction l with
  | nil => intro a b; simp
  | cons y l ih =>
    intro a b
    rw [List.foldl_cons, ih, List.forall_mem_cons]
    constructor
    · rintro ⟨h1, h2⟩
      exact ⟨by omega, by omega, h2⟩
    · rintro ⟨h1, h2, h3⟩
      exact ⟨by omega, h3⟩

theorem prod_pos {s : List Nat} (h : 0 ∉ s) : 0 < s.prod := by
  induction s with
  | nil => simp
  | cons n s ih =>
    rw [List.mem_cons, not_or] at h
    rw [List.prod_cons]
    exact Nat.mul_pos (Nat.pos_of_ne_zero (Ne.symm h.1)) (ih h.2)

theorem exists_pixel {s : List Nat} (h : 0 ∉ s) : ∃ x, x ∈ pixels s :=
  ⟨_, mem_pixels.2 (unravel_inbox (prod_pos h)).1⟩

theorem amax_range {f : Nd Int} (h0 : 0 ∉ f.shape) {m : Int}
    (h : ∀ x ∈ pixels f.shape, 0 ≤ val f x ∧ val f x < m) :
    0 ≤ amax f.toList ∧ amax f.toList < m := by
  obtain ⟨x, hx⟩ := exists_pixel h0
  have h1 := h x hx
  have h2 : amax f.toList ≤ amax f.toList := le_refl _
  have h3 := (foldl_max_le.1 h2).2 _ (mem_toList.2 ⟨x, hx, rfl⟩)
  have h4 : amax f.toList ≤ m - 1 := by
    refine foldl_max_le.2 ⟨by omega, fun v hv => ?_⟩
    obtain ⟨y, hy, rfl⟩ := mem_toList.1 hv
    have := h y hy
    omega
  omega

theorem val_reshape3 {A f : Nd Int} (h3 : f.shape.length ≤ 3) (hA : A.shape = shape3 f.shape) {x : List Int}
    (hx : x.length = f.shape.length) : val (A.reshape f.shape) x = val A (raise x) := by
  unfold val Nd.reshape
  rw [hA, flat_raise h3 hx]

/-- The number of iterations. -/
def count (it : List Nat) : Nat := it.foldl max 0

theorem getD_le_count (it : List Nat) (l : Nat) : it.getD l 0 ≤ count it := by
  have h := (foldl_max_nat (l := it) (a := 0) (b := count it)).1 (le_refl _)
  rw [List.getD_eq_getElem?_getD]
  by_cases hl : l < it.length
  · rw [List.getElem?_eq_getElem hl]
    exact h.2 _ (List.getElem_mem hl)
  · rw [List.getElem?_eq_none (by omega)]
    exact Nat.zero_le _

theorem shape3_fits {s r : List Nat} (h3 : r.length ≤ 3) (h : List.Forall₂ (fun n r => r / 2 ≤ n) s r) :
    List.Forall₂ (fun n r => r / 2 ≤ n) (shape3 s) (shape3 r) := by
  have hl : s.length = r.length := h.length_eq
  cases same3 h3 hl <;> simp_all [shape3]

theorem iterationsOf_le_count (it : List Nat) (l : Int) : iterationsOf it l ≤ count it := by
  unfold iterationsOf
  split <;> exact getD_le_count _ _

/-- dilate without assertions is the iteration of `stepF` on the padded image. -/
theorem dilate_refines_release {periodic : Bool} {f kernel : Nd Int} {it : List Nat}
    (hlegal : Legal periodic f.shape kernel.shape) (himage : 0 ∉ f.shape)
    (hlabel : ∀ x ∈ pixels f.shape, LabelOk it (val f x)) :
    ∃ g : Geo, g.N = shape3 f.shape ∧ g.R = shape3 kernel.shape ∧ g.Half ∧ (periodic = true → g.Fits) ∧
      Start periodic g (f.atleast3d.extend (padMode periodic) 0) ∧
      ∃ r, dilate false f kernel it periodic = ok r ∧ r.shape = f.shape ∧
        ∀ x ∈ pixels f.shape, val r x =
          evolve g kernel.atleast3d it periodic (f.atleast3d.extend (padMode periodic) 0) (count it) (raise x) := by
  have hk3 := hlegal.rank
  have hsame := hlegal.same
  have hf3 : f.shape.length ≤ 3 := by omega
  obtain ⟨n0, n1, n2, en⟩ := shape3_cases hf3
  obtain ⟨r0, r1, r2, er⟩ := shape3_cases hk3
  have rpos := shape3_pos hk3 hlegal.pos
  have npos := shape3_pos hf3 himage
  rw [er] at rpos
  rw [en] at npos
  have p0 : 0 < r0 := rpos r0 (by simp)
  have p1 : 0 < r1 := rpos r1 (by simp)
  have p2 : 0 < r2 := rpos r2 (by simp)
  have m0 : 0 < n0 := npos n0 (by simp)
  have m1 : 0 < n1 := npos n1 (by simp)
  have m2 : 0 < n2 := npos n2 (by simp)
  let g : Geo := ⟨(r0 - 1) / 2, (r1 - 1) / 2, (r2 - 1) / 2, n0, n1, n2, r0 / 2, r1 / 2, r2 / 2⟩
  have hN : g.N = shape3 f.shape := en.symm
  have hR : g.R = shape3 kernel.shape := by
    rw [er]
    simp only [g, Geo.R, List.cons.injEq, and_true]
    omega
  have hhalf : g.Half := by
    simp only [g, Geo.Half]
    omega
  have hfit0 : periodic = true → r0 / 2 ≤ n0 ∧ r1 / 2 ≤ n1 ∧ r2 / 2 ≤ n2 := by
    intro hp
    have := shape3_fits hk3 (hlegal.fits hp)
    rw [en, er] at this
    simpa using this
  have hfits : periodic = true → g.Fits := by
    intro hp
    have := hfit0 hp
    simp only [g, Geo.Fits]
    omega
  have hmode : padMode periodic = .periodic → periodic = true := by
    cases periodic <;> simp [padMode]
  set φ := f.atleast3d.extend (padMode periodic) 0 with hφ
  -- the values of the extended image
  have hcore : ∀ i j k, g.Core i j k → φ [i, j, k] = val f.atleast3d [i, j, k] := by
    intro i j k hc
    have hb : InBox f.atleast3d.shape [i, j, k] := by
      show InBox (shape3 f.shape) _
      rw [← hN]
      exact mem_pixels.1 (core_iff.2 hc)
    cases periodic with
    | false =>
      show (if inside f.atleast3d.shape [i, j, k] then _ else _) = _
      rw [if_pos (inside_iff.2 hb), at_eq_val hb]
    | true =>
      show f.atleast3d.at_ (wrap (shape3 f.shape) [i, j, k]) = _
      rw [← hN, wrap_core hc, at_eq_val hb]
  have hstart : Start periodic g φ := by
    constructor
    · intro hp i j k hi
      have hw : g.Core (i % (n0 : Int)) (j % (n1 : Int)) (k % (n2 : Int)) := by
        refine ⟨⟨Int.emod_nonneg _ ?_, Int.emod_lt_of_pos _ ?_⟩, ⟨Int.emod_nonneg _ ?_, Int.emod_lt_of_pos _ ?_⟩,
          ⟨Int.emod_nonneg _ ?_, Int.emod_lt_of_pos _ ?_⟩⟩ <;> omega
      have e : wrap g.N [i, j, k] = [i % (n0 : Int), j % (n1 : Int), k % (n2 : Int)] := rfl
      rw [e, hcore _ _ _ hw]
      subst hp
      show f.atleast3d.at_ (wrap (shape3 f.shape) [i, j, k]) = _
      rw [← hN, e]
      refine at_eq_val ?_
      show InBox (shape3 f.shape) _
      rw [← hN]
      exact mem_pixels.1 (core_iff.2 hw)
    · intro hp i j k _ hc
      subst hp
      show (if inside f.atleast3d.shape [i, j, k] then _ else _) = _
      rw [if_neg]
      intro hb
      refine hc (core_iff.1 (mem_pixels.2 ?_))
      rw [hN]
      exact inside_iff.1 hb
  have hlab : ∀ x ∈ pixels g.N, LabelOk it (φ x) := by
    intro x hx
    have hx' := hx
    obtain ⟨a, b, c, rfl, hc⟩ := inbox3.1 (mem_pixels.1 hx')
    rw [hcore a b c hc]
    rw [hN, pixels_raise hf3, List.mem_map] at hx
    obtain ⟨x, hx, ex⟩ := hx
    rw [← ex, val_atleast3d hf3 (inbox_length (mem_pixels.1 hx))]
    exact hlabel x hx
  refine ⟨g, hN, hR, hhalf, hfits, hstart, ?_⟩
  -- padding
  obtain ⟨A, eA, sA, vA⟩ := pad_ok (a := f.atleast3d) (en : f.atleast3d.shape = _) p0 p1 p2 (padMode periodic) 0
    (fun hm => hfit0 (hmode hm))
  have hA : Rep g A φ := by
    refine Rep.of_abs sA fun i j k hb => ?_
    have hb' : InBox A.shape [i, j, k] := by rw [sA]; exact hb
    rw [← at_eq_val hb', vA _ hb']
    rfl
  have hpad : padWidth [r0, r1, r2] = g.pad := by
    obtain ⟨a0, b0, e0, -, rfl, rfl⟩ := pad_sum p0
    obtain ⟨a1, b1, e1, -, rfl, rfl⟩ := pad_sum p1
    obtain ⟨a2, b2, e2, -, rfl, rfl⟩ := pad_sum p2
    simp only [padWidth, List.map_cons, List.map_nil, e0, e1, e2]
    rfl
  have hK : kernel.atleast3d.shape = g.R := hR.symm
  obtain ⟨B, eB, hB⟩ := iterate_rep (K := kernel.atleast3d) (it := it) (φ := φ) hhalf hK hfits
    (evolve_label hfits hstart hlab) (count it) 0 (F := A) hA
  rw [Nat.zero_add] at hB
  -- removing the padding
  obtain ⟨V, eV, sV, vV⟩ := view3 hB.shape (s0 := (g.p0 : Int)) (s1 := (g.p1 : Int)) (s2 := (g.p2 : Int))
    (w0 := g.n0) (w1 := g.n1) (w2 := g.n2) (by omega) (by omega) (by omega)
  have hview : List.zipWith (fun (n : Nat) (p : Nat × Nat) => ((p.1 : Int), (n : Int) - p.2)) B.shape g.pad =
      [((g.p0 : Int), (g.p0 : Int) + g.n0), ((g.p1 : Int), (g.p1 : Int) + g.n1), ((g.p2 : Int), (g.p2 : Int) + g.n2)] := by
    rw [hB.shape]
    simp only [Geo.S, Geo.pad, List.zipWith_cons_cons, List.zipWith_nil_right, List.cons.injEq, Prod.mk.injEq, and_true, true_and]
    push_cast
    omega
  have hsz : V.size = f.size := by
    rw [Nd.size, Nd.size, sV, prodShape_eq, prodShape_eq, ← shape3_prod hf3, en]
  refine ⟨V.reshape f.shape, ?_, rfl, fun x hx => ?_⟩
  · have e4 : ∀ c, gassert false c = ok () := by simp [gassert]
    unfold dilate
    simp only [e4, ok_bind]
    rw [if_neg (by rw [not_or, not_or]; exact ⟨by omega, by omega, hlegal.pos⟩)]
    rw [show kernel.atleast3d.shape = [r0, r1, r2] from er, eA, ok_bind, hpad, List.range_eq_range',
      show it.foldl max 0 = count it from rfl, eB, ok_bind, hview, eV, ok_bind, if_pos hsz]
    rfl
  · have hxl := inbox_length (mem_pixels.1 hx)
    rw [val_reshape3 hf3 (sV.trans en.symm) hxl]
    have hr : raise x ∈ pixels g.N := by
      rw [hN]
      exact (mem_pixels_raise hf3 hxl).2 hx
    obtain ⟨a, b, c, e, hc⟩ := inbox3.1 (mem_pixels.1 hr)
    rw [e] at hr ⊢
    rw [vV _ _ _ (mem_pixels.1 hr), hB.val a b c (Geo.Core.in hc)]

/-- The labels are accepted by the assertion and can be looked up. -/
theorem DilateArgs.facts {periodic : Bool} {f kernel : Nd Int} {it : List Nat} (h : DilateArgs periodic f kernel it) :
    (∀ x ∈ pixels f.shape, LabelOk it (val f x)) ∧ 0 ≤ amax f.toList ∧ amax f.toList ≤ it.length + 1 := by
  rcases h.label with hl | ⟨h1, ⟨x, hx, h0⟩, h2⟩
  · have := amax_range h.image hl
    exact ⟨fun x hx => Or.inr (hl x hx), by omega, by omega⟩
  · refine ⟨fun _ _ => Or.inl h1, ?_, foldl_max_le.2 ⟨by omega, fun v hv => ?_⟩⟩
    · have := (foldl_max_le (l := f.toList) (b := amax f.toList)).1 (le_refl _) |>.2 _ (mem_toList.2 ⟨x, hx, rfl⟩)
      omega
    · obtain ⟨y, hy, rfl⟩ := mem_toList.1 hv
      have := h2 y hy
      omega

/-- Legal arguments pass the assertions. -/
theorem dilate_release (dbg : Bool) {periodic : Bool} {f kernel : Nd Int} {it : List Nat}
    (h : DilateArgs periodic f kernel it) : dilate dbg f kernel it periodic = dilate false f kernel it periodic := by
  have hk3 := h.legal.rank
  have hsame := h.legal.same
  have hf3 : f.shape.length ≤ 3 := by omega
  have ham := (DilateArgs.facts h).2
  have e1 : ∀ dbg, gassert dbg (decide (f.shape.length ≤ 3)) = ok () := by simp [gassert, hf3]
  have e2 : ∀ dbg, gassert dbg (decide (f.shape.length = kernel.shape.length)) = ok () := by simp [gassert, hsame]
  have e3 : ∀ dbg, gassert dbg (binary kernel) = ok () := by simp [gassert, h.mask.binary]
  have e4 : ∀ dbg, gassert dbg (decide (0 ≤ amax f.toList ∧ amax f.toList ≤ it.length + 1)) = ok () := by
    simp [gassert, ham]
  unfold dilate
  rw [e1, e1, e2, e2, e3, e3, e4, e4]

/-- dilate is the iteration of `stepF` on the padded image. -/
theorem dilate_refines (dbg : Bool) {periodic : Bool} {f kernel : Nd Int} {it : List Nat}
    (h : DilateArgs periodic f kernel it) :
    ∃ g : Geo, g.N = shape3 f.shape ∧ g.R = shape3 kernel.shape ∧ g.Half ∧ (periodic = true → g.Fits) ∧
      Start periodic g (f.atleast3d.extend (padMode periodic) 0) ∧
      ∃ r, dilate dbg f kernel it periodic = ok r ∧ r.shape = f.shape ∧
        ∀ x ∈ pixels f.shape, val r x =
          evolve g kernel.atleast3d it periodic (f.atleast3d.extend (padMode periodic) 0) (count it) (raise x) := by
  rw [dilate_release dbg h]
  exact dilate_refines_release h.legal h.image (DilateArgs.facts h).1

theorem extend_image {periodic : Bool} {f : Nd Int} (h3 : f.shape.length ≤ 3) {x : List Int}
    (hx : x ∈ pixels f.shape) : f.atleast3d.extend (padMode periodic) 0 (raise x) = val f x := by
  have hb := mem_pixels.1 hx
  rw [extend_atleast3d h3 (inbox_length hb) (inbox_pos hb)]
  cases periodic with
  | false => exact if_pos hx
  | true =>
    show val f (wrap f.shape x) = _
    rw [wrap_of_inbox hb]

variable {K : Nd Int} {it : List Nat} {g : Geo} {periodic : Bool} {φ : List Int → Int}

/-- A labelled pixel stays labelled. -/
theorem evolve_stay (hg : periodic = true → g.Fits) {z : List Int} (hz : z ∈ pixels g.N) {t : Nat}
    (h : evolve g K it periodic φ t z ≠ 0) : ∀ n, evolve g K it periodic φ (t + n) z ≠ 0
  | 0 => h
  | n + 1 => by
    have ih := evolve_stay hg hz h n
    have hgr : growing K it (t + n) (evolve g K it periodic φ (t + n)) (pixels g.N)
        (evolve g K it periodic φ (t + n)) z ≠ 0 := growing_keep ih
    show stepF g K it periodic (t + n) _ z ≠ 0
    unfold stepF
    cases periodic with
    | false => exact hgr
    | true =>
      obtain ⟨a, b, c, rfl, hc⟩ := inbox3.1 (mem_pixels.1 hz)
      have := copies_carry (hg rfl) (Geo.Core.in hc) hgr
      rw [Int.emod_eq_of_lt hc.1.1 hc.1.2, Int.emod_eq_of_lt hc.2.1.1 hc.2.1.2,
        Int.emod_eq_of_lt hc.2.2.1 hc.2.2.2] at this
      exact this

/-! ### Without periodicity, only the image matters -/

theorem growing_congr {l : List (List Int)} {ψ γ δ : List Int → Int} {it' : List Nat} {t t' : Nat} {z : List Int}
    (hl : ∀ x ∈ l, φ x = ψ x) (hz : φ z = ψ z) (hγ : γ z = δ z)
    (hc : ∀ x ∈ l, φ x ≠ 0 → (t < iterationsOf it (φ x) ↔ t' < iterationsOf it' (φ x))) :
    growing K it t φ l γ z = growing K it' t' ψ l δ z := by
  unfold growing
  rw [hγ]
  generalize δ z = v
  clear hγ
  induction l generalizing v with
  | nil => rfl
  | cons x l ih =>
    have hx := hl x (by simp)
    have hiff : Hit K it t φ x z ↔ Hit K it' t' ψ x z := by
      unfold Hit
      rw [← hx, ← hz]
      constructor
      · rintro ⟨h1, h2, h3⟩
        exact ⟨h1, (hc x (by simp) h1).1 h2, h3⟩
      · rintro ⟨h1, h2, h3⟩
        exact ⟨h1, (hc x (by simp) h1).2 h2, h3⟩
    rw [List.foldl_cons, List.foldl_cons,
      ih (fun y hy => hl y (by simp [hy])) (fun y hy => hc y (by simp [hy])), if_congr hiff hx rfl]

theorem evolve_local {g' : Geo} (hN : g'.N = g.N) {ψ : List Int → Int} {it' : List Nat} {s T : Nat}
    (h0 : ∀ z ∈ pixels g.N, evolve g K it false φ s z = ψ z)
    (hc : ∀ t < T, ∀ x ∈ pixels g.N, evolve g K it false φ (s + t) x ≠ 0 →
      (s + t < iterationsOf it (evolve g K it false φ (s + t) x) ↔
        t < iterationsOf it' (evolve g K it false φ (s + t) x))) :
    ∀ t ≤ T, ∀ z ∈ pixels g.N, evolve g K it false φ (s + t) z = evolve g' K it' false ψ t z
  | 0, _, z, hz => h0 z hz
  | t + 1, ht, z, hz => by
    have ih := evolve_local hN h0 hc t (by omega)
    show growing K it (s + t) _ (pixels g.N) _ z = growing K it' t _ (pixels g'.N) _ z
    rw [hN]
    exact growing_congr ih (ih z hz) (ih z hz) (hc t (by omega))

/-! ### Renaming labels -/

theorem growing_rename {π : Int → Int} (hπ : ∀ l, π l = 0 ↔ l = 0) {it' : List Nat} {t : Nat} {l : List (List Int)}
    {ψ γ δ : List Int → Int} {z : List Int} (hl : ∀ x ∈ l, ψ x = π (φ x)) (hz : ψ z = π (φ z))
    (hγ : δ z = π (γ z))
    (hc : ∀ x ∈ l, φ x ≠ 0 → iterationsOf it' (π (φ x)) = iterationsOf it (φ x)) :
    growing K it' t ψ l δ z = π (growing K it t φ l γ z) := by
  unfold growing
  rw [hγ]
  generalize γ z = v
  clear hγ
  induction l generalizing v with
  | nil => rfl
  | cons x l ih =>
    have hx := hl x (by simp)
    have hiff : Hit K it' t ψ x z ↔ Hit K it t φ x z := by
      unfold Hit
      rw [hx, hz, Ne, hπ, hπ]
      constructor
      · rintro ⟨h1, h2, h3⟩
        exact ⟨h1, by rwa [hc x (by simp) h1] at h2, h3⟩
      · rintro ⟨h1, h2, h3⟩
        exact ⟨h1, by rwa [hc x (by simp) h1], h3⟩
    rw [List.foldl_cons, List.foldl_cons,
      ← ih (fun y hy => hl y (by simp [hy])) (fun y hy => hc y (by simp [hy])), if_congr hiff hx rfl]
    by_cases h : Hit K it t φ x z
    · simp [h]
    · simp [h]

/-- The operation commutes with the renaming of labels. -/
def Renames (g : Geo) (π : Int → Int) (T : (List Int → Int) → List Int → Int) : Prop :=
  ∀ φ ψ : List Int → Int, (∀ i j k, g.In i j k → ψ [i, j, k] = π (φ [i, j, k])) →
    ∀ i j k, g.In i j k → T ψ [i, j, k] = π (T φ [i, j, k])

theorem down0_renames {π : Int → Int} (hπ : ∀ l, π l = 0 ↔ l = 0) (hg : g.Fits) : Renames g π (down0 g) := by
  intro φ ψ h i j k hi
  show (if (0 ≤ i ∧ i < g.q0) ∧ ψ [i + (g.n0 : Int), j, k] ≠ 0 then ψ [i + (g.n0 : Int), j, k] else ψ [i, j, k]) =
    π (if (0 ≤ i ∧ i < g.q0) ∧ φ [i + (g.n0 : Int), j, k] ≠ 0 then φ [i + (g.n0 : Int), j, k] else φ [i, j, k])
  by_cases hr : 0 ≤ i ∧ i < g.q0
  · have e : ψ [i + (g.n0 : Int), j, k] = π (φ [i + (g.n0 : Int), j, k]) := h _ _ _ (by unfold Geo.In at hi ⊢; unfold Geo.Fits at hg; omega)
    rw [e, h i j k hi]
    simp only [ne_eq, hπ]
    split <;> rfl
  · rw [if_neg fun c => hr c.1, if_neg fun c => hr c.1, h i j k hi]

theorem down1_renames {π : Int → Int} (hπ : ∀ l, π l = 0 ↔ l = 0) (hg : g.Fits) : Renames g π (down1 g) := by
  intro φ ψ h i j k hi
  show (if (0 ≤ j ∧ j < g.q1) ∧ ψ [i, j + (g.n1 : Int), k] ≠ 0 then ψ [i, j + (g.n1 : Int), k] else ψ [i, j, k]) =
    π (if (0 ≤ j ∧ j < g.q1) ∧ φ [i, j + (g.n1 : Int), k] ≠ 0 then φ [i, j + (g.n1 : Int), k] else φ [i, j, k])
  by_cases hr : 0 ≤ j ∧ j < g.q1
  · have e : ψ [i, j + (g.n1 : Int), k] = π (φ [i, j + (g.n1 : Int), k]) := h _ _ _ (by unfold Geo.In at hi ⊢; unfold Geo.Fits at hg; omega)
    rw [e, h i j k hi]
    simp only [ne_eq, hπ]
    split <;> rfl
  · rw [if_neg fun c => hr c.1, if_neg fun c => hr c.1, h i j k hi]

theorem down2_renames {π : Int → Int} (hπ : ∀ l, π l = 0 ↔ l = 0) (hg : g.Fits) : Renames g π (down2 g) := by
  intro φ ψ h i j k hi
  show (if (0 ≤ k ∧ k < g.q2) ∧ ψ [i, j, k + (g.n2 : Int)] ≠ 0 then ψ [i, j, k + (g.n2 : Int)] else ψ [i, j, k]) =
    π (if (0 ≤ k ∧ k < g.q2) ∧ φ [i, j, k + (g.n2 : Int)] ≠ 0 then φ [i, j, k + (g.n2 : Int)] else φ [i, j, k])
  by_cases hr : 0 ≤ k ∧ k < g.q2
  · have e : ψ [i, j, k + (g.n2 : Int)] = π (φ [i, j, k + (g.n2 : Int)]) := h _ _ _ (by unfold Geo.In at hi ⊢; unfold Geo.Fits at hg; omega)
    rw [e, h i j k hi]
    simp only [ne_eq, hπ]
    split <;> rfl
  · rw [if_neg fun c => hr c.1, if_neg fun c => hr c.1, h i j k hi]

theorem up0_renames {π : Int → Int} (hπ : ∀ l, π l = 0 ↔ l = 0) (hg : g.Fits) : Renames g π (up0 g) := by
  intro φ ψ h i j k hi
  show (if ((g.n0 : Int) - g.p0 ≤ i ∧ i < g.n0) ∧ ψ [i - (g.n0 : Int), j, k] ≠ 0 then ψ [i - (g.n0 : Int), j, k] else ψ [i, j, k]) =
    π (if ((g.n0 : Int) - g.p0 ≤ i ∧ i < g.n0) ∧ φ [i - (g.n0 : Int), j, k] ≠ 0 then φ [i - (g.n0 : Int), j, k] else φ [i, j, k])
  by_cases hr : (g.n0 : Int) - g.p0 ≤ i ∧ i < g.n0
  · have e : ψ [i - (g.n0 : Int), j, k] = π (φ [i - (g.n0 : Int), j, k]) := h _ _ _ (by unfold Geo.In at hi ⊢; unfold Geo.Fits at hg; omega)
    rw [e, h i j k hi]
    simp only [ne_eq, hπ]
    split <;> rfl
  · rw [if_neg fun c => hr c.1, if_neg fun c => hr c.1, h i j k hi]

theorem up1_renames {π : Int → Int} (hπ : ∀ l, π l = 0 ↔ l = 0) (hg : g.Fits) : Renames g π (up1 g) := by
  intro φ ψ h i j k hi
  show (if ((g.n1 : Int) - g.p1 ≤ j ∧ j < g.n1) ∧ ψ [i, j - (g.n1 : Int), k] ≠ 0 then ψ [i, j - (g.n1 : Int), k] else ψ [i, j, k]) =
    π (if ((g.n1 : Int) - g.p1 ≤ j ∧ j < g.n1) ∧ φ [i, j - (g.n1 : Int), k] ≠ 0 then φ [i, j - (g.n1 : Int), k] else φ [i, j, k])
  by_cases hr : (g.n1 : Int) - g.p1 ≤ j ∧ j < g.n1
  · have e : ψ [i, j - (g.n1 : Int), k] = π (φ [i, j - (g.n1 : Int), k]) := h _ _ _ (by unfold Geo.In at hi ⊢; unfold Geo.Fits at hg; omega)
    rw [e, h i j k hi]
    simp only [ne_eq, hπ]
    split <;> rfl
  · rw [if_neg fun c => hr c.1, if_neg fun c => hr c.1, h i j k hi]

theorem up2_renames {π : Int → Int} (hπ : ∀ l, π l = 0 ↔ l = 0) (hg : g.Fits) : Renames g π (up2 g) := by
  intro φ ψ h i j k hi
  show (if ((g.n2 : Int) - g.p2 ≤ k ∧ k < g.n2) ∧ ψ [i, j, k - (g.n2 : Int)] ≠ 0 then ψ [i, j, k - (g.n2 : Int)] else ψ [i, j, k]) =
    π (if ((g.n2 : Int) - g.p2 ≤ k ∧ k < g.n2) ∧ φ [i, j, k - (g.n2 : Int)] ≠ 0 then φ [i, j, k - (g.n2 : Int)] else φ [i, j, k])
  by_cases hr : (g.n2 : Int) - g.p2 ≤ k ∧ k < g.n2
  · have e : ψ [i, j, k - (g.n2 : Int)] = π (φ [i, j, k - (g.n2 : Int)]) := h _ _ _ (by unfold Geo.In at hi ⊢; unfold Geo.Fits at hg; omega)
    rw [e, h i j k hi]
    simp only [ne_eq, hπ]
    split <;> rfl
  · rw [if_neg fun c => hr c.1, if_neg fun c => hr c.1, h i j k hi]

theorem copies_renames {π : Int → Int} (hπ : ∀ l, π l = 0 ↔ l = 0) (hg : g.Fits) : Renames g π (copies g) :=
  fun _ _ h => up2_renames hπ hg _ _ (up1_renames hπ hg _ _ (up0_renames hπ hg _ _
    (down2_renames hπ hg _ _ (down1_renames hπ hg _ _ (down0_renames hπ hg _ _ h)))))

theorem evolve_renames {π : Int → Int} (hπ : ∀ l, π l = 0 ↔ l = 0) {it' : List Nat} {ψ : List Int → Int}
    (hg : periodic = true → g.Fits) (h0 : ∀ i j k, g.In i j k → ψ [i, j, k] = π (φ [i, j, k]))
    (hc : ∀ t, ∀ x ∈ pixels g.N, evolve g K it periodic φ t x ≠ 0 →
      iterationsOf it' (π (evolve g K it periodic φ t x)) = iterationsOf it (evolve g K it periodic φ t x)) :
    ∀ t i j k, g.In i j k → evolve g K it' periodic ψ t [i, j, k] = π (evolve g K it periodic φ t [i, j, k])
  | 0 => h0
  | t + 1 => by
    have ih := evolve_renames hπ hg h0 hc t
    have hgr : ∀ i j k, g.In i j k →
        growing K it' t (evolve g K it' periodic ψ t) (pixels g.N) (evolve g K it' periodic ψ t) [i, j, k] =
        π (growing K it t (evolve g K it periodic φ t) (pixels g.N) (evolve g K it periodic φ t) [i, j, k]) := by
      intro i j k hi
      refine growing_rename hπ (fun x hx => ?_) (ih i j k hi) (ih i j k hi) (hc t)
      obtain ⟨a, b, c, rfl, hx'⟩ := inbox3.1 (mem_pixels.1 hx)
      exact ih a b c (Geo.Core.in hx')
    intro i j k hi
    show stepF g K it' periodic t _ _ = π (stepF g K it periodic t _ _)
    unfold stepF
    cases periodic with
    | false => exact hgr i j k hi
    | true => exact copies_renames hπ (hg rfl) _ _ hgr i j k hi

/-! ### The last pixel that covers -/

theorem foldl_last {α β : Type} (P : α → Prop) [DecidablePred P] (φ : α → β) : ∀ (l : List α) (v : β),
    l.foldl (fun v x => if P x then φ x else v) v = ((l.filter fun x => P x).getLast?.map φ).getD v
  | [], v => rfl
  | x :: l, v => by
    rw [List.foldl_cons, foldl_last P φ l]
    by_cases h : P x
    · rw [if_pos h, List.filter_cons_of_pos (by simpa using h), List.getLast?_cons]
      cases (l.filter fun x => decide (P x)).getLast? <;> rfl
    · rw [if_neg h, List.filter_cons_of_neg (by simpa using h)]

end Verif.Dilate
