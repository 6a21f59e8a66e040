import Verif.Lemmas.FloatSim

/-!
# Floating-point arithmetic: L, W2c and the mean
-/

namespace Verif.Ens

open Outcome Nd

variable {rnd : ℚ → ℚ}

/-- As `both_forM`, for a body that is only known on the elements of the list. -/
theorem both_forM_mem {σ α β : Type} {P : ℤ → α → β → Prop} {m : ℤ} {body : α → σ → Outcome α}
    {body' : β → σ → Outcome β} (hm : 0 ≤ m) :
    ∀ (l : List σ) {c : ℤ} {a : α} {b : β},
      (∀ c, ∀ x ∈ l, ∀ a b, P c a b → c + m ≤ 2 ^ 53 → Both (P (c + m)) (body a x) (body' b x)) →
      P c a b → c + l.length * m ≤ 2 ^ 53 → Both (P (c + l.length * m)) (forM l a body) (forM l b body')
  | [], c, a, b, _, h, _ => by simpa [forM, Both] using h
  | x :: l, c, a, b, hb, h, hc => by
    have hl : 0 ≤ (l.length : ℤ) * m := by positivity
    have e : c + ((x :: l).length : ℤ) * m = c + m + l.length * m := by
      rw [List.length_cons]; push_cast; ring
    rw [e] at hc ⊢
    simp only [forM]
    exact Both.bind (hb c x (by simp) a b h (by omega)) fun a' b' h' =>
      both_forM_mem hm l (fun c y hy => hb c y (List.mem_cons_of_mem _ hy)) h' hc

section

variable {A c m : ℤ} {F : Nd (Fl rnd)} {F' : Nd ℚ} {E : Ensemble (Fl rnd)} {E' : Ensemble ℚ}
  {pad : List (Nat × Nat)}

theorem walkL_same (hr : ExactInts rnd) (hF : SameNd A F F') (x : List Int) {n : ℤ} :
    ∀ (rows : List (List Int)) {c : ℤ} {E : Ensemble (Fl rnd)} {E' : Ensemble ℚ},
      SameEns c E E' ∧ SameNd n E.norm E'.norm → c + rows.length ≤ 2 ^ 53 →
      Both (fun E E' => SameEns (c + rows.length) E E' ∧ SameNd n E.norm E'.norm) (walkL pad F x rows E)
        (walkL pad F' x rows E')
  | [], c, E, E', h, _ => by simpa [walkL, Both] using h
  | d :: rows, c, E, E', h, hc => by
    have e : c + ((d :: rows).length : ℤ) = c + 1 + rows.length := by
      rw [List.length_cons]; push_cast; ring
    rw [e] at hc ⊢
    rw [walkL, walkL]
    refine Both.bind (hF.read _) fun v v' hv => ?_
    refine both_ite hv.zero_iff (fun _ => Both.pure ⟨h.1.mono (by omega), h.2⟩) (fun _ => ?_)
    refine Both.bind (h.1.first.addAt hr same_one (by omega) _) fun a b hab => ?_
    exact walkL_same hr hF x rows (E := { E with first := a }) (E' := { E' with first := b })
      ⟨{ h.1 with first := hab, second := h.1.second.mono (by omega), norm := h.1.norm.mono (by omega) }, h.2⟩ hc

theorem stampL_same (hr : ExactInts rnd) (hF : SameNd A F F') {pathTo : List Int → Outcome (List (List Int))}
    {s : List Int} {len size : Nat} (hp : ∀ rows, pathTo s = ok rows → rows.length ≤ len)
    (hs : (pixelLoop F'.shape pad).length = size) (h : SameEns c E E') (hc : c + size * len ≤ 2 ^ 53) :
    Both (SameEns (c + size * len)) (stampL pathTo pad F size E s) (stampL pathTo pad F' size E' s) := by
  have h0 := h.first.nonneg
  unfold stampL
  cases e : pathTo s with
  | ok rows =>
    have hl : (rows.length : ℤ) ≤ len := by exact_mod_cast hp rows e
    have hsl : (size : ℤ) * rows.length ≤ size * len := mul_le_mul_of_nonneg_left hl (by positivity)
    simp only [ok_bind]
    have h1 := both_forM (P := fun n E E' => SameEns n E E' ∧ SameNd c E.norm E'.norm)
      (body := fun E x => walkL pad F x rows E) (body' := fun E x => walkL pad F' x rows E) (m := rows.length)
      (fun c x a b hab hc => walkL_same hr hF x rows hab hc) (by positivity) (pixelLoop F'.shape pad) (c := c)
      (a := E) (b := E') ⟨h, h.norm⟩ (by rw [hs]; omega)
    rw [hF.1]
    refine Both.bind h1 fun E1 E1' hE1 => ?_
    rw [hs] at hE1
    have h2 := both_forM (P := fun n E E' => SameEns (2 ^ 53) E E' ∧ SameNd (c + size * len) E.first E'.first ∧
        SameNd (c + size * len) E.second E'.second ∧ SameNd n E.norm E'.norm) (m := size)
      (body := fun (E : Ensemble (Fl rnd)) d => do
        let norm ← E.norm.addAt (plus (origin pad) d) (size : Fl rnd)
        pure { E with norm := norm })
      (body' := fun (E : Ensemble ℚ) d => do
        let norm ← E.norm.addAt (plus (origin pad) d) (size : ℚ)
        pure { E with norm := norm })
      (fun n x a b hab hc => by
        refine Both.bind (hab.2.2.2.addAt hr (same_nat hr le_rfl ?_) hc _) fun N N' hN => ?_
        · have := hab.2.2.2.nonneg
          omega
        · exact ⟨{ hab.1 with norm := hN.mono hc }, hab.2.1, hab.2.2.1, hN⟩) (by positivity) rows (c := c)
      (a := E1) (b := E1')
      ⟨hE1.1.mono (by omega), hE1.1.first.mono (by omega), hE1.1.second.mono (by omega), hE1.2⟩
      (by rw [mul_comm]; omega)
    refine h2.mono fun a b hab => { hab.1 with first := hab.2.1, second := hab.2.2.1, norm := hab.2.2.2.mono ?_ }
    rw [mul_comm]; omega
  | throws => trivial
  | ub => trivial
  | diverge => trivial

theorem walkW2c_same (hr : ExactInts rnd) (hF : SameNd A F F') (hA : 1 ≤ A) {Fm Cl : Nd Int} {label : Int}
    {x : List Int} {path : List (List Int)} :
    ∀ (rows : List (List Int)) (q : Int) {c : ℤ} {E : Ensemble (Fl rnd)} {E' : Ensemble ℚ},
      SameEns c E E' → c + rows.length * A ≤ 2 ^ 53 →
      Both (SameEns (c + rows.length * A)) (walkW2c pad F Fm Cl label x path rows q E)
        (walkW2c pad F' Fm Cl label x path rows q E')
  | [], q, c, E, E', h, _ => by simpa [walkW2c, Both] using h
  | d :: rows, q, c, E, E', h, hc => by
    have hl : 0 ≤ (rows.length : ℤ) * A := by positivity
    have e : c + ((d :: rows).length : ℤ) * A = c + A + rows.length * A := by
      rw [List.length_cons]; push_cast; ring
    rw [e] at hc ⊢
    rw [walkW2c, walkW2c]
    refine Both.bind (both_refl _) fun k k' hk => ?_
    subst hk
    dsimp only
    generalize (if k ≠ label ∧ q < 0 then 0 else q) = q
    refine both_branch (P := SameEns (c + A)) Iff.rfl (fun _ => ?_) (fun _ => Both.pure (h.mono (by omega)))
      fun a b hab => walkW2c_same hr hF hA rows _ hab hc
    refine Both.bind (both_refl _) fun k k' hk => ?_
    subst hk
    refine both_ite Iff.rfl (fun _ => ?_) (fun _ => Both.pure (h.mono (by omega)))
    generalize path[q.toNat]? = o
    cases o with
    | none => trivial
    | some dq =>
      refine Both.bind (h.norm.addAt hr same_one (by omega) _) fun N N' hN => ?_
      refine Both.bind (hF.read _) fun v v' hv => ?_
      refine Both.bind (h.first.addAt hr hv (by omega) _) fun a b hab => ?_
      exact { h with first := hab, second := h.second.mono (by omega), norm := hN.mono (by omega) }

theorem stampW2c_same (hr : ExactInts rnd) (hF : SameNd A F F') (hA : 1 ≤ A) {Fm Cl Ce : Nd Int}
    {pathTo : List Int → Outcome (List (List Int))}
    {s : List Int} {len size : Nat} (hp : ∀ rows, pathTo s = ok rows → rows.length ≤ len)
    (hs : (pixelLoop F'.shape pad).length = size) (h : SameEns c E E') (hc : c + size * (len * A) ≤ 2 ^ 53) :
    Both (SameEns (c + size * (len * A))) (stampW2c pathTo pad F Fm Cl Ce E s)
      (stampW2c pathTo pad F' Fm Cl Ce E' s) := by
  unfold stampW2c
  cases e : pathTo s with
  | ok rows =>
    have hl : (rows.length : ℤ) ≤ len := by exact_mod_cast hp rows e
    have hl' : (rows.length : ℤ) * A ≤ len * A := mul_le_mul_of_nonneg_right hl (by omega)
    have hl0 : 0 ≤ (rows.length : ℤ) * A := by positivity
    simp only [ok_bind]
    rw [hF.1, ← hs]
    rw [← hs] at hc
    refine both_forM (fun c x a b hab hc => ?_) (by positivity) _ h hc
    unfold bodyW2c
    refine Both.bind (both_refl _) fun k k' hk => ?_
    subst hk
    refine both_ite Iff.rfl (fun _ => Both.pure (hab.mono (by omega))) (fun _ => ?_)
    refine Both.bind (both_refl _) fun k k' hk => ?_
    subst hk
    refine both_ite Iff.rfl (fun _ => Both.pure (hab.mono (by omega))) (fun _ => ?_)
    exact (walkW2c_same hr hF hA rows (-1) hab (by omega)).mono fun _ _ h => h.mono (by omega)
  | throws => trivial
  | ub => trivial
  | diverge => trivial

variable {f : Nd (Fl rnd)} {f' : Nd ℚ}

theorem L_same (hr : ExactInts rnd) (dbg : Bool) {junk : ℚ} {fuel : Nat} {mode : Path.Mode} {len : Nat}
    (h : SameEns c E E') (hf : SameNd A f f')
    (hp : ∀ s ∈ stamps E'.shape E'.pad, ∀ rows, Path.path junk fuel [0, 0, 0] s mode = ok rows → rows.length ≤ len)
    (hc : c + (stamps E'.shape E'.pad).length * (f'.shape.prod * len) ≤ 2 ^ 53) :
    Both (SameEns (c + (stamps E'.shape E'.pad).length * (f'.shape.prod * len))) (L dbg junk fuel E f mode)
      (L dbg junk fuel E' f' mode) := by
  unfold L
  rw [hf.1, h.shapeOrig, h.stat]
  iterate 2 refine Both.bind (both_refl _) fun _ _ _ => ?_
  dsimp only
  rw [h.pad, h.periodic, h.shape]
  refine Both.bind (pad_sameNd hf _ _) fun F F' hF => ?_
  have hsize : f.size = f'.size := by unfold Nd.size; rw [hf.1]
  have hsz : f'.size = f'.shape.prod := Cluster.prodShape_eq _
  rw [hsize, hsz]
  exact both_forM_mem (by positivity) _ (fun c s hs a b hab hc =>
    stampL_same hr hF.1 (hp s hs) hF.2 hab hc)
    ⟨rfl, rfl, h.variance, rfl, rfl, rfl, h.first, h.second, h.norm⟩ hc

theorem W2c_same (hr : ExactInts rnd) (dbg : Bool) {junk : ℚ} {fuel : Nat} {mode : Path.Mode} {len : Nat}
    {clusters centers fmask : Nd Int} (h : SameEns c E E') (hf : SameNd A f f') (hA : 1 ≤ A)
    (hp : ∀ s ∈ stamps E'.shape E'.pad, ∀ rows, Path.path junk fuel [0, 0, 0] s mode = ok rows → rows.length ≤ len)
    (hc : c + (stamps E'.shape E'.pad).length * (f'.shape.prod * (len * A)) ≤ 2 ^ 53) :
    Both (SameEns (c + (stamps E'.shape E'.pad).length * (f'.shape.prod * (len * A))))
      (W2c dbg junk fuel E clusters centers f fmask mode) (W2c dbg junk fuel E' clusters centers f' fmask mode) := by
  unfold W2c
  rw [hf.1, h.shapeOrig, h.stat]
  iterate 6 refine Both.bind (both_refl _) fun _ _ _ => ?_
  dsimp only
  rw [h.pad, h.periodic, h.shape]
  refine Both.bind (pad_sameNd hf _ _) fun F F' hF => ?_
  refine Both.bind (both_refl _) fun k k' hk => ?_
  subst hk
  refine Both.bind (both_refl _) fun k k' hk => ?_
  subst hk
  refine Both.bind (both_refl _) fun k k' hk => ?_
  subst hk
  exact both_forM_mem (by positivity) _ (fun c s hs a b hab hc =>
    stampW2c_same hr hF.1 hA (hp s hs) hF.2 hab hc)
    ⟨rfl, rfl, h.variance, rfl, rfl, rfl, h.first, h.second, h.norm⟩ hc

theorem sum_same (hr : ExactInts rnd) (hA : 0 ≤ A) : ∀ {l : List (Fl rnd)} {l' : List ℚ}, List.Forall₂ (Same A) l l' →
    l'.length * A ≤ 2 ^ 53 → Same (l'.length * A) l.sum l'.sum
  | [], [], _, _ => by simpa using same_zero (le_refl _)
  | a :: l, b :: l', .cons h h', hc => by
    have hl : 0 ≤ (l'.length : ℤ) * A := by positivity
    have e : ((b :: l').length : ℤ) * A = A + l'.length * A := by
      rw [List.length_cons]; push_cast; ring
    rw [e] at hc ⊢
    exact h.add hr (sum_same hr hA h' (by omega)) hc

theorem SameNd.sum (hr : ExactInts rnd) (hf : SameNd A f f') (hc : f'.shape.prod * A ≤ 2 ^ 53) :
    Same (f'.shape.prod * A) f.sum f'.sum := by
  have hA := hf.nonneg
  have hl : f'.toList.length = f'.shape.prod := by
    unfold Nd.toList Nd.size
    rw [List.length_map, List.length_range, Cluster.prodShape_eq]
  unfold Nd.sum
  rw [← hl] at hc ⊢
  refine sum_same hr hA ?_ hc
  unfold Nd.toList Nd.size
  rw [hf.1, List.forall₂_map_left_iff, List.forall₂_map_right_iff, List.forall₂_same]
  exact fun k _ => hf.2 k

theorem addMean_same (hr : ExactInts rnd) (h : SameEns c E E') {a1 a2 a3 : Fl rnd} {b1 b2 b3 : ℚ}
    (h1 : Same m a1 b1) (h2 : Same m a2 b2) (h3 : Same m a3 b3) (hc : c + m ≤ 2 ^ 53) :
    Both (SameEns (c + m))
      (do
        let first ← addTo0 E.first a1
        let second ← addTo0 E.second a2
        let norm ← addTo0 E.norm a3
        pure { E with stat := .mean, first := first, second := second, norm := norm })
      (do
        let first ← addTo0 E'.first b1
        let second ← addTo0 E'.second b2
        let norm ← addTo0 E'.norm b3
        pure { E' with stat := .mean, first := first, second := second, norm := norm }) := by
  refine Both.bind (h.first.addAt hr h1 hc _) fun _ _ k1 => ?_
  refine Both.bind (h.second.addAt hr h2 hc _) fun _ _ k2 => ?_
  refine Both.bind (h.norm.addAt hr h3 hc _) fun _ _ k3 => ?_
  exact ⟨rfl, h.periodic, h.variance, h.shapeOrig, h.shape, h.pad, k1, k2, k3⟩

theorem mean_same (hr : ExactInts rnd) (dbg : Bool) (h : SameEns c E E') (hf : SameNd A f f') (hA : 1 ≤ A)
    (hA53 : A ^ 2 ≤ 2 ^ 53) (hc : c + f'.shape.prod * A ^ 2 ≤ 2 ^ 53) :
    Both (SameEns (c + f'.shape.prod * A ^ 2)) (mean dbg E f) (mean dbg E' f') := by
  have h0 := h.first.nonneg
  have hA2 : A ≤ A ^ 2 := le_self_pow₀ hA (by decide)
  have e1 : (f'.shape.prod : ℤ) * A ≤ f'.shape.prod * A ^ 2 := mul_le_mul_of_nonneg_left hA2 (by positivity)
  have e2 : (f'.shape.prod : ℤ) * 1 ≤ f'.shape.prod * A ^ 2 :=
    mul_le_mul_of_nonneg_left (hA.trans hA2) (by positivity)
  have hsize : f.size = f'.shape.prod := by unfold Nd.size; rw [hf.1, Cluster.prodShape_eq]
  have hsz : f'.size = f'.shape.prod := Cluster.prodShape_eq _
  unfold mean
  rw [hsize, hsz]
  refine Both.bind (P := fun _ _ => True) (by rw [h.shape]; exact (both_refl _).mono fun _ _ _ => trivial) fun _ _ _ => ?_
  refine Both.bind (P := fun _ _ => True) (by rw [h.stat]; exact (both_refl _).mono fun _ _ _ => trivial) fun _ _ _ => ?_
  have h2 := (hf.map fun _ _ hx => hx.pow hr 2 hA53).sum hr (show ((f'.map fun x => x ^ 2).shape.prod : ℤ) * A ^ 2 ≤ 2 ^ 53 by
    show (f'.shape.prod : ℤ) * A ^ 2 ≤ 2 ^ 53
    omega)
  have h3 : Same (rnd := rnd) (f'.shape.prod * A ^ 2) (f'.shape.prod : Nat) (f'.shape.prod : Nat) :=
    same_nat hr (by omega) (by omega)
  exact addMean_same hr h ((hf.sum hr (by omega)).mono e1) h2 h3 hc

theorem meanMask_same (hr : ExactInts rnd) (dbg : Bool) (h : SameEns c E E') (hf : SameNd A f f') (hA : 1 ≤ A)
    (hA53 : A ^ 2 ≤ 2 ^ 53) {fmask : Nd Int} (hs : fmask.shape = f'.shape) (hm : Bits fmask)
    (hc : c + f'.shape.prod * A ^ 2 ≤ 2 ^ 53) :
    Both (SameEns (c + f'.shape.prod * A ^ 2)) (meanMask dbg E f fmask) (meanMask dbg E' f' fmask) := by
  have h0 := h.first.nonneg
  have hA2 : A ≤ A ^ 2 := le_self_pow₀ hA (by decide)
  have e1 : (f'.shape.prod : ℤ) * A ≤ f'.shape.prod * A ^ 2 := mul_le_mul_of_nonneg_left hA2 (by positivity)
  have e2 : (f'.shape.prod : ℤ) * 1 ≤ f'.shape.prod * A ^ 2 :=
    mul_le_mul_of_nonneg_left (hA.trans hA2) (by positivity)
  unfold meanMask
  rw [hf.1]
  iterate 2 refine Both.bind (both_refl _) fun _ _ _ => ?_
  refine Both.bind (P := fun _ _ => True) (by rw [h.shape]; exact (both_refl _).mono fun _ _ _ => trivial) fun _ _ _ => ?_
  refine Both.bind (P := fun _ _ => True) (by rw [h.stat]; exact (both_refl _).mono fun _ _ _ => trivial) fun _ _ _ => ?_
  unfold Nd.map₂
  rw [hf.1, hs, if_pos rfl, if_pos rfl, if_pos rfl, if_pos rfl]
  simp only [ok_bind]
  have s1 : SameNd (rnd := rnd) A ⟨f'.shape, fun k => if fmask.get k = 0 then f.get k else 0⟩
      ⟨f'.shape, fun k => if fmask.get k = 0 then f'.get k else 0⟩ := by
    refine ⟨rfl, fun k => ?_⟩
    dsimp only
    split
    · exact hf.2 k
    · exact same_zero (by omega)
  have s2 : SameNd (rnd := rnd) (A ^ 2) ⟨f'.shape, fun k => if fmask.get k = 0 then f.get k ^ 2 else 0⟩
      ⟨f'.shape, fun k => if fmask.get k = 0 then f'.get k ^ 2 else 0⟩ := by
    refine ⟨rfl, fun k => ?_⟩
    dsimp only
    split
    · exact (hf.2 k).pow hr 2 hA53
    · exact same_zero (by omega)
  have s3 : SameNd (rnd := rnd) 1 (fmask.map fun m => ((1 - m : Int) : Fl rnd)) (fmask.map fun m => ((1 - m : Int) : ℚ)) := by
    refine ⟨rfl, fun k => same_int hr ?_ (by norm_num)⟩
    rcases hm k with e | e <;> rw [e] <;> norm_num
  have k3 := s3.sum hr (by
    show (fmask.shape.prod : ℤ) * 1 ≤ 2 ^ 53
    rw [hs]; omega)
  have k1 := s1.sum hr (by show (f'.shape.prod : ℤ) * A ≤ 2 ^ 53; omega)
  have k2 := s2.sum hr (by show (f'.shape.prod : ℤ) * A ^ 2 ≤ 2 ^ 53; omega)
  refine addMean_same hr h (k1.mono e1) k2 (k3.mono ?_) hc
  show (fmask.shape.prod : ℤ) * 1 ≤ _
  rw [hs]; exact e2

end

end Verif.Ens
