import Verif.Props.Dilate
import Verif.Props.Dummy32
import Verif.Lemmas.Measures

/-!
# Which calls of dilate return (C25)

`C25_throws`, `C25_ub` and `C25_returns` in the form of an equivalence each: for every image, any integers as labels,
with and without assertions.
-/

namespace Verif.Props

open Verif Outcome Spec Cluster Nd Ens Dilate

variable {periodic : Bool} {f kernel : Nd Int} {iterations : List Nat}

/-- What the assertion on the labels tests: the largest label is between 0 and the number of numbers of iterations
plus one. -/
def Accepted (f : Nd Int) (iterations : List Nat) : Prop :=
  (∃ x ∈ pixels f.shape, 0 ≤ val f x) ∧ ∀ x ∈ pixels f.shape, val f x ≤ iterations.length + 1

/-- A labelled pixel has no number of iterations (if there is one number, it is that of all labels). -/
def Unlisted (f : Nd Int) (iterations : List Nat) : Prop :=
  iterations.length ≠ 1 ∧ ∃ x ∈ pixels f.shape, val f x ≠ 0 ∧ ¬ (0 ≤ val f x ∧ val f x < iterations.length)

/-- There is something to do. -/
def Iterates (iterations : List Nat) : Prop := ∃ n ∈ iterations, 0 < n

instance : Decidable (Accepted f iterations) := by unfold Accepted; infer_instance
instance : Decidable (Unlisted f iterations) := by unfold Unlisted; infer_instance
instance : Decidable (Iterates iterations) := by unfold Iterates; infer_instance

theorem accepted_iff : (0 ≤ amax f.toList ∧ amax f.toList ≤ (iterations.length : Int) + 1) ↔ Accepted f iterations := by
  constructor
  · rintro ⟨h0, h1⟩
    refine ⟨?_, fun x hx => (foldl_max_le.1 h1).2 _ (mem_toList.2 ⟨x, hx, rfl⟩)⟩
    by_contra hc
    have : amax f.toList ≤ -1 := by
      refine foldl_max_le.2 ⟨by norm_num, fun v hv => ?_⟩
      obtain ⟨x, hx, rfl⟩ := mem_toList.1 hv
      by_contra hn
      exact hc ⟨x, hx, by omega⟩
    omega
  · rintro ⟨⟨x, hx, h0⟩, h1⟩
    refine ⟨?_, foldl_max_le.2 ⟨by omega, fun v hv => ?_⟩⟩
    · have := (foldl_max_le (l := f.toList) (b := amax f.toList)).1 (le_refl _) |>.2 _ (mem_toList.2 ⟨x, hx, rfl⟩)
      omega
    · obtain ⟨x, hx, rfl⟩ := mem_toList.1 hv
      exact h1 x hx

theorem count_pos_iff : 0 < count iterations ↔ Iterates iterations := by
  constructor
  · intro h
    by_contra hc
    have : count iterations ≤ 0 := foldl_max_nat.2 ⟨le_refl _, fun n hn => by
      by_contra h0
      exact hc ⟨n, hn, by omega⟩⟩
    omega
  · rintro ⟨n, hn, h0⟩
    have := (foldl_max_nat (l := iterations) (a := 0) (b := count iterations)).1 (le_refl _) |>.2 n hn
    omega

/-- After the assertions. -/
theorem dilate_asserted (dbg : Bool) (hl : Legal periodic f.shape kernel.shape) (hm : IsMask kernel) :
    dilate dbg f kernel iterations periodic =
      if dbg = true ∧ ¬ Accepted f iterations then throws else dilate false f kernel iterations periodic := by
  have hk3 := hl.rank
  have hsame := hl.same
  have hf3 : f.shape.length ≤ 3 := by omega
  have e1 : ∀ dbg, gassert dbg (decide (f.shape.length ≤ 3)) = ok () := by simp [gassert, hf3]
  have e2 : ∀ dbg, gassert dbg (decide (f.shape.length = kernel.shape.length)) = ok () := by simp [gassert, hsame]
  have e3 : ∀ dbg, gassert dbg (binary kernel) = ok () := by simp [gassert, hm.binary]
  have e4 : ∀ c, gassert false c = ok () := by simp [gassert]
  unfold dilate
  rw [e1, e1, e2, e2, e3, e3, e4]
  simp only [ok_bind]
  cases dbg with
  | false => rw [e4, ok_bind, if_neg (c := false = true ∧ ¬ Accepted f iterations) (by simp)]
  | true =>
    by_cases h : Accepted f iterations
    · rw [if_neg (c := true = true ∧ ¬ Accepted f iterations) (by simpa using h), decide_eq_true (accepted_iff.2 h)]
      rfl
    · rw [if_pos (c := true = true ∧ ¬ Accepted f iterations) ⟨rfl, h⟩, decide_eq_false (fun c => h (accepted_iff.1 c))]
      rfl

theorem plain_view (a : Nd Int) (r : List (Int × Int)) : Dummy.Plain (a.view r) := by
  unfold Nd.view
  split
  · exact Dummy.plain_ub
  · split
    · exact Dummy.plain_ub
    · exact Dummy.plain_ok _

theorem plain_setView (a : Nd Int) (r : List (Int × Int)) (v : Nd Int) : Dummy.Plain (a.setView r v) := by
  unfold Nd.setView
  split
  · exact Dummy.plain_ub
  · split
    · exact Dummy.plain_ub
    · split
      · exact Dummy.plain_ub
      · exact Dummy.plain_ok _

theorem plain_map₂ {α β γ : Type} (φ : α → β → γ) (a : Nd α) (b : Nd β) : Dummy.Plain (Nd.map₂ φ a b) := by
  unfold Nd.map₂
  split
  · exact Dummy.plain_ok _
  · exact Dummy.plain_ub

theorem plain_read (a : Nd Int) (x : List Int) : Dummy.Plain (a.read x) := by
  unfold Nd.read
  split
  · exact Dummy.plain_ok _
  · exact Dummy.plain_ub

theorem plain_pixel (pad : List (Nat × Nat)) (K : Nd Int) (it : List Nat) (t : Nat) (F G : Nd Int) (x : List Int) :
    Dummy.Plain (pixel pad K it t F G x) := by
  unfold pixel
  refine Dummy.plain_bind (plain_read _ _) fun l => ?_
  split
  · exact Dummy.plain_ok _
  · split
    · exact Dummy.plain_ub
    · split
      · exact Dummy.plain_ok _
      · exact Dummy.plain_bind (plain_view _ _) fun _ => Dummy.plain_bind (plain_view _ _) fun _ =>
            Dummy.plain_bind (plain_map₂ _ _ _) fun _ => Dummy.plain_bind (plain_map₂ _ _ _) fun _ => plain_setView _ _ _

/-- The first iteration meets the label. -/
theorem dilate_unlisted (hl : Legal periodic f.shape kernel.shape) (hi : Iterates iterations)
    (hu : Unlisted f iterations) : dilate false f kernel iterations periodic = ub := by
  have hk3 := hl.rank
  have hsame := hl.same
  have hf3 : f.shape.length ≤ 3 := by omega
  have e4 : ∀ c, gassert false c = ok () := by simp [gassert]
  obtain ⟨A, eA, hA⟩ := padded (a := f) (roi := kernel.shape) hk3 hl.pos hsame (padMode periodic) 0
    (fun hm => hl.fits (by revert hm; cases periodic <;> simp [padMode]))
  obtain ⟨h1, x, hx, h0, hn⟩ := hu
  have hxl := inbox_length (mem_pixels.1 hx)
  have hb : raise x ∈ pixels f.atleast3d.shape := (mem_pixels_raise hf3 hxl).2 hx
  obtain ⟨c, ec⟩ : ∃ c, iterations.foldl max 0 = c + 1 := ⟨count iterations - 1, by
    have := count_pos_iff.2 hi
    show count iterations = _
    omega⟩
  have hfirst : iteration (padWidth (shape3 kernel.shape)) kernel.atleast3d iterations periodic A 0 = ub := by
    unfold iteration
    have : forM (pixelLoop A.shape (padWidth (shape3 kernel.shape))) A
        (pixel (padWidth (shape3 kernel.shape)) kernel.atleast3d iterations 0 A) = ub := by
      refine Dummy.forM_ub (y := plus (raise x) (ctr (shape3 kernel.shape))) (fun s y => plain_pixel _ _ _ _ _ _ _)
        (fun s => ?_) ?_ A
      · unfold pixel
        rw [hA.read (mem_pixels.1 hb), ok_bind, val_atleast3d hf3 hxl, if_neg h0]
        have : at1 iterations (val f x) = none := by
          unfold at1
          rw [if_neg h1]
          split
          · rfl
          · rw [List.getElem?_eq_none (by omega)]
        rw [this]
      · rw [hA.loop]
        exact List.mem_map_of_mem hb
    rw [this]
    rfl
  unfold dilate
  simp only [e4, ok_bind]
  rw [if_neg (by rw [not_or, not_or]; exact ⟨by omega, by omega, hl.pos⟩)]
  rw [show kernel.atleast3d.shape = shape3 kernel.shape from rfl, eA, ok_bind, ec, List.range_eq_range', List.range'_succ]
  rw [forM, hfirst]
  rfl

/-- Nothing to do: the image is returned, whatever its labels are. -/
theorem dilate_idle (hl : Legal periodic f.shape kernel.shape) (h0 : 0 ∉ f.shape) (hi : ¬ Iterates iterations) :
    ∃ r, dilate false f kernel iterations periodic = ok r ∧ r.shape = f.shape ∧
      ∀ x ∈ pixels f.shape, val r x = val f x := by
  have hk3 := hl.rank
  have hsame := hl.same
  have hf3 : f.shape.length ≤ 3 := by omega
  have e4 : ∀ c, gassert false c = ok () := by simp [gassert]
  obtain ⟨n0, n1, n2, en⟩ := shape3_cases hf3
  obtain ⟨r0, r1, r2, er⟩ := shape3_cases hk3
  have rpos := shape3_pos hk3 hl.pos
  rw [er] at rpos
  have p0 : 0 < r0 := rpos r0 (by simp)
  have p1 : 0 < r1 := rpos r1 (by simp)
  have p2 : 0 < r2 := rpos r2 (by simp)
  have hfit0 : padMode periodic = .periodic → r0 / 2 ≤ n0 ∧ r1 / 2 ≤ n1 ∧ r2 / 2 ≤ n2 := by
    intro hp
    have := shape3_fits hk3 (hl.fits (by revert hp; cases periodic <;> simp [padMode]))
    rw [en, er] at this
    simpa using this
  obtain ⟨A, eA, sA, vA⟩ := pad_ok (a := f.atleast3d) (en : f.atleast3d.shape = _) p0 p1 p2 (padMode periodic) 0 hfit0
  let g : Geo := ⟨(r0 - 1) / 2, (r1 - 1) / 2, (r2 - 1) / 2, n0, n1, n2, r0 / 2, r1 / 2, r2 / 2⟩
  have hpad : padWidth [r0, r1, r2] = g.pad := by
    obtain ⟨a0, b0, e0, -, rfl, rfl⟩ := pad_sum p0
    obtain ⟨a1, b1, e1, -, rfl, rfl⟩ := pad_sum p1
    obtain ⟨a2, b2, e2, -, rfl, rfl⟩ := pad_sum p2
    simp only [padWidth, List.map_cons, List.map_nil, e0, e1, e2]
    rfl
  have hN : g.N = shape3 f.shape := en.symm
  set φ := f.atleast3d.extend (padMode periodic) 0 with hφ
  have hA : Rep g A φ := by
    refine Rep.of_abs sA fun i j k hb => ?_
    have hb' : InBox A.shape [i, j, k] := by rw [sA]; exact hb
    rw [← at_eq_val hb', vA _ hb']
    rfl
  obtain ⟨V, eV, sV, vV⟩ := view3 hA.shape (s0 := (g.p0 : Int)) (s1 := (g.p1 : Int)) (s2 := (g.p2 : Int))
    (w0 := g.n0) (w1 := g.n1) (w2 := g.n2) (by omega) (by omega) (by omega)
  have hview : List.zipWith (fun (n : Nat) (p : Nat × Nat) => ((p.1 : Int), (n : Int) - p.2)) A.shape g.pad =
      [((g.p0 : Int), (g.p0 : Int) + g.n0), ((g.p1 : Int), (g.p1 : Int) + g.n1), ((g.p2 : Int), (g.p2 : Int) + g.n2)] := by
    rw [hA.shape]
    simp only [Geo.S, Geo.pad, List.zipWith_cons_cons, List.zipWith_nil_right, List.cons.injEq, Prod.mk.injEq, and_true, true_and]
    push_cast
    omega
  have hsz : V.size = f.size := by
    rw [Nd.size, Nd.size, sV, prodShape_eq, prodShape_eq, ← shape3_prod hf3, en]
  have ec : iterations.foldl max 0 = 0 := by
    have : ¬ 0 < count iterations := fun c => hi (count_pos_iff.1 c)
    show count iterations = 0
    omega
  refine ⟨V.reshape f.shape, ?_, rfl, fun x hx => ?_⟩
  · unfold dilate
    simp only [e4, ok_bind]
    rw [if_neg (by rw [not_or, not_or]; exact ⟨by omega, by omega, hl.pos⟩)]
    rw [show kernel.atleast3d.shape = [r0, r1, r2] from er, eA, ok_bind, hpad, ec]
    show (A.view _ >>= _) = _
    rw [hview, eV, ok_bind, if_pos hsz]
    rfl
  · have hxl := inbox_length (mem_pixels.1 hx)
    rw [val_reshape3 hf3 (sV.trans en.symm) hxl]
    have hr : raise x ∈ pixels g.N := by
      rw [hN]
      exact (mem_pixels_raise hf3 hxl).2 hx
    rw [← extend_image (periodic := periodic) hf3 hx]
    obtain ⟨a, b, c, e, hc⟩ := inbox3.1 (mem_pixels.1 hr)
    rw [e] at hr ⊢
    rw [vV _ _ _ (mem_pixels.1 hr), hA.val a b c (Geo.Core.in hc)]

theorem listed_ok (hi : Iterates iterations) (hu : ¬ Unlisted f iterations) :
    ∀ x ∈ pixels f.shape, LabelOk iterations (val f x) := by
  intro x hx
  by_cases h1 : iterations.length = 1
  · exact Or.inl h1
  right
  obtain ⟨n, hn, -⟩ := hi
  have := List.length_pos_of_mem hn
  by_cases hz : val f x = 0
  · omega
  · by_contra hc
    exact hu ⟨h1, x, hx, hz, hc⟩

theorem dilate_listed (hl : Legal periodic f.shape kernel.shape) (h0 : 0 ∉ f.shape)
    (hi : Iterates iterations) (hu : ¬ Unlisted f iterations) :
    ∃ r, dilate false f kernel iterations periodic = ok r := by
  obtain ⟨-, -, -, -, -, -, r, hr, -⟩ := dilate_refines_release hl h0 (listed_ok hi hu)
  exact ⟨r, hr⟩

/-- What is thrown: exactly what the assertion on the labels refuses. -/
theorem C25_throws_iff (dbg : Bool) (hl : Legal periodic f.shape kernel.shape) (h0 : 0 ∉ f.shape) (hm : IsMask kernel) :
    dilate dbg f kernel iterations periodic = throws ↔ dbg = true ∧ ¬ Accepted f iterations := by
  rw [dilate_asserted dbg hl hm]
  constructor
  · intro h
    by_contra hc
    rw [if_neg hc] at h
    by_cases hi : Iterates iterations
    · by_cases hu : Unlisted f iterations
      · rw [dilate_unlisted hl hi hu] at h
        cases h
      · obtain ⟨r, hr⟩ := dilate_listed hl h0 hi hu
        rw [hr] at h
        cases h
    · obtain ⟨r, hr, -⟩ := dilate_idle hl h0 hi
      rw [hr] at h
      cases h
  · intro h
    rw [if_pos h]

/-- What is undefined: exactly the calls that pass the assertion (if there is one), have something to do, and have
a labelled pixel without a number of iterations. -/
theorem C25_ub_iff (dbg : Bool) (hl : Legal periodic f.shape kernel.shape) (h0 : 0 ∉ f.shape) (hm : IsMask kernel) :
    dilate dbg f kernel iterations periodic = ub ↔
      (dbg = true → Accepted f iterations) ∧ Iterates iterations ∧ Unlisted f iterations := by
  rw [dilate_asserted dbg hl hm]
  constructor
  · intro h
    have hc : ¬ (dbg = true ∧ ¬ Accepted f iterations) := by
      intro hc
      rw [if_pos hc] at h
      cases h
    rw [if_neg hc] at h
    refine ⟨fun hd => by by_contra hp; exact hc ⟨hd, hp⟩, ?_⟩
    by_cases hi : Iterates iterations
    · refine ⟨hi, ?_⟩
      by_contra hu
      obtain ⟨r, hr⟩ := dilate_listed hl h0 hi hu
      rw [hr] at h
      cases h
    · obtain ⟨r, hr, -⟩ := dilate_idle hl h0 hi
      rw [hr] at h
      cases h
  · rintro ⟨hp, hi, hu⟩
    rw [if_neg (fun c => c.2 (hp c.1)), dilate_unlisted hl hi hu]

/-- What returns: everything else. -/
theorem C25_returns_iff (dbg : Bool) (hl : Legal periodic f.shape kernel.shape) (h0 : 0 ∉ f.shape) (hm : IsMask kernel) :
    (∃ r, dilate dbg f kernel iterations periodic = ok r) ↔
      (dbg = true → Accepted f iterations) ∧ (Iterates iterations → ¬ Unlisted f iterations) := by
  constructor
  · rintro ⟨r, hr⟩
    have h1 : ¬ dilate dbg f kernel iterations periodic = throws := by rw [hr]; simp
    have h2 : ¬ dilate dbg f kernel iterations periodic = ub := by rw [hr]; simp
    rw [C25_throws_iff dbg hl h0 hm] at h1
    rw [C25_ub_iff dbg hl h0 hm] at h2
    have hp : dbg = true → Accepted f iterations := fun hd => by by_contra hp; exact h1 ⟨hd, hp⟩
    exact ⟨hp, fun hi hu => h2 ⟨hp, hi, hu⟩⟩
  · rintro ⟨hp, hu⟩
    rw [dilate_asserted dbg hl hm, if_neg (fun c => c.2 (hp c.1))]
    by_cases hi : Iterates iterations
    · exact dilate_listed hl h0 hi (hu hi)
    · obtain ⟨r, hr, -⟩ := dilate_idle hl h0 hi
      exact ⟨r, hr⟩

/-- The three cases on an image with labels 1 and 2 and a kernel of one pixel: refused, undefined, returned. -/
example : Legal false (mk [0, 2]).shape (mk [1]).shape ∧ 0 ∉ (mk [0, 2]).shape ∧ IsMask (mk [1]) ∧
    ¬ Accepted (mk [0, 2]) [] ∧ (Accepted (mk [0, 2]) [1, 1] ∧ Iterates [1, 1] ∧ Unlisted (mk [0, 2]) [1, 1]) ∧
    (Accepted (mk [0, 2]) [0, 0, 1] ∧ Iterates [0, 0, 1] ∧ ¬ Unlisted (mk [0, 2]) [0, 0, 1]) ∧
    (Accepted (mk [0, 2]) [0, 0] ∧ ¬ Iterates [0, 0] ∧ Unlisted (mk [0, 2]) [0, 0]) ∧
    (Accepted (mk [0, 2]) [3] ∧ Iterates [3] ∧ ¬ Unlisted (mk [0, 2]) [3]) := by
  refine ⟨⟨by decide, by decide, by decide, fun h => by cases h⟩, by decide, ?_, by decide, by decide, by decide, by decide, by decide⟩
  unfold IsMask
  decide

end Verif.Props
