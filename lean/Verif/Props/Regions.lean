import Verif.Props.Dilate
import Verif.Spec.Regions

/-! # The regions grown by dilate (C91, C92) -/

namespace Verif.Props

open Verif Outcome Spec Cluster Nd Ens Dilate

variable {periodic : Bool} {f kernel : Nd Int} {iterations : List Nat}

theorem ReachIn.mono {shape : List Nat} {P Q : List Int → Prop} {x y : List Int} {n : Nat}
    (h : ReachIn periodic shape kernel P x n y) (hPQ : ∀ z, P z → Q z) :
    ∀ {m : Nat}, n ≤ m → ReachIn periodic shape kernel Q x m y := by
  induction h with
  | here n hx => exact fun _ => .here _ (hPQ _ hx)
  | step n y d _ hd ht hp ih =>
    intro m hm
    obtain ⟨m, rfl⟩ : ∃ m', m = m' + 1 := ⟨m - 1, by omega⟩
    exact .step m y d (ih (by omega)) hd ht (hPQ _ hp)

theorem ReachIn.reach {shape : List Nat} {P : List Int → Prop} {x y : List Int} {n : Nat}
    (h : ReachIn periodic shape kernel P x n y) : Reach periodic shape kernel x n y := by
  induction h with
  | here n _ => exact .here n
  | step n y d _ hd ht _ ih => exact .step n y d ih hd ht

/-! ### Layers -/

section
variable {shape : List Nat} {it : Int → Nat} {φ : List Int → Int}

theorem layers_keep {T : Nat} {z : List Int} (h : layers shape kernel it φ T z ≠ 0) :
    layers shape kernel it φ (T + 1) z = layers shape kernel it φ T z := by
  show spread shape kernel _ _ z = _
  unfold spread
  rw [if_pos h]

theorem layers_keep_le {T T' : Nat} (hT : T ≤ T') {z : List Int} (h : layers shape kernel it φ T z ≠ 0) :
    layers shape kernel it φ T' z = layers shape kernel it φ T z := by
  obtain ⟨n, rfl⟩ := Nat.exists_eq_add_of_le hT
  induction n with
  | zero => rfl
  | succ n ih =>
    have e := ih (by omega)
    rw [← e, ← Nat.add_assoc]
    exact layers_keep (by rw [e]; exact h)

/-- A pixel gets its label from a pixel of the layer before. -/
theorem layers_new {T : Nat} {z : List Int} (h0 : layers shape kernel it φ T z = 0)
    (h : layers shape kernel it φ (T + 1) z ≠ 0) :
    ∃ w ∈ pixels shape, layers shape kernel it φ T w = layers shape kernel it φ (T + 1) z ∧
      T < it (layers shape kernel it φ (T + 1) z) ∧ ∃ d, Offset kernel d ∧ z = move w d := by
  have e : layers shape kernel it φ (T + 1) z = (((pixels shape).filter fun x =>
      layers shape kernel it φ T x ≠ 0 ∧ decide (T < it (layers shape kernel it φ T x)) = true ∧
        Covers kernel x z).getLast?.map (layers shape kernel it φ T)).getD 0 := by
    show spread shape kernel _ _ z = _
    unfold spread
    rw [if_neg (by simpa using h0)]
  cases hl : ((pixels shape).filter fun x =>
      layers shape kernel it φ T x ≠ 0 ∧ decide (T < it (layers shape kernel it φ T x)) = true ∧
        Covers kernel x z).getLast? with
  | none =>
    rw [hl] at e
    exact absurd e h
  | some w =>
    rw [hl] at e
    have e' : layers shape kernel it φ (T + 1) z = layers shape kernel it φ T w := e
    have hw := List.mem_of_getLast? hl
    rw [List.mem_filter] at hw
    obtain ⟨hw, hp⟩ := hw
    simp only [decide_eq_true_eq] at hp
    rw [e']
    exact ⟨w, hw, rfl, hp.2.1, offset_covers.2 hp.2.2⟩

theorem layers_grow {T : Nat} {w z : List Int} (hw : w ∈ pixels shape) (h0 : layers shape kernel it φ T w ≠ 0)
    (hT : T < it (layers shape kernel it φ T w)) (hc : ∃ d, Offset kernel d ∧ z = move w d) :
    layers shape kernel it φ (T + 1) z ≠ 0 := by
  by_cases hz : layers shape kernel it φ T z = 0
  · show spread shape kernel _ _ z ≠ 0
    unfold spread
    rw [if_neg (by simpa using hz)]
    cases hl : ((pixels shape).filter fun x =>
        layers shape kernel it φ T x ≠ 0 ∧ decide (T < it (layers shape kernel it φ T x)) = true ∧
          Covers kernel x z).getLast? with
    | none =>
      rw [List.getLast?_eq_none_iff, List.filter_eq_nil_iff] at hl
      exact absurd (by simpa using ⟨h0, hT, offset_covers.1 hc⟩) (hl w hw)
    | some v =>
      have hv := List.mem_of_getLast? hl
      rw [List.mem_filter] at hv
      have := hv.2
      simp only [decide_eq_true_eq] at this
      exact this.1
  · rw [layers_keep hz]
    exact hz

/-- Every label is joined to its origin through pixels with that label. -/
theorem layers_joined : ∀ (T : Nat) (z : List Int), z ∈ pixels shape → layers shape kernel it φ T z ≠ 0 →
    ∃ y ∈ pixels shape, φ y = layers shape kernel it φ T z ∧
      ReachIn false shape kernel (fun x => layers shape kernel it φ T x = layers shape kernel it φ T z) y
        (min T (it (layers shape kernel it φ T z))) z
  | 0, z, hz, _ => ⟨z, hz, rfl, .here _ rfl⟩
  | T + 1, z, hz, h => by
    have lift : ∀ {l : Int} {v : List Int}, l ≠ 0 → layers shape kernel it φ T v = l →
        layers shape kernel it φ (T + 1) v = l := by
      rintro l v hl rfl
      exact layers_keep hl
    by_cases h0 : layers shape kernel it φ T z = 0
    · obtain ⟨w, hw, e, ht, d, hd, rfl⟩ := layers_new h0 h
      obtain ⟨y, hy, ey, hr⟩ := layers_joined T w hw (by rw [e]; exact h)
      rw [e] at ey hr
      refine ⟨y, hy, ey, ?_⟩
      rw [show min (T + 1) (it (layers shape kernel it φ (T + 1) (move w d))) = T + 1 by omega]
      exact .step T w d (ReachIn.mono hr (fun v hv => lift h hv) (by omega)) hd hz rfl
    · obtain ⟨y, hy, ey, hr⟩ := layers_joined T z hz h0
      rw [layers_keep h0]
      exact ⟨y, hy, ey, ReachIn.mono hr (fun v hv => lift h0 hv) (by omega)⟩

/-- If all labels grow for `k` layers, the pixels reached in `n ≤ k` steps have a label in layer `n`. -/
theorem layers_reached {k : Nat} (hk : ∀ x ∈ pixels shape, φ x ≠ 0 → it (φ x) = k) {y z : List Int} {n : Nat}
    (hy : y ∈ pixels shape) (h0 : φ y ≠ 0) (hr : Reach false shape kernel y n z) : n ≤ k →
    z ∈ pixels shape ∧ layers shape kernel it φ n z ≠ 0 := by
  induction hr with
  | here n =>
    intro _
    refine ⟨hy, ?_⟩
    rw [layers_keep_le (T := 0) (Nat.zero_le n) h0]
    exact h0
  | step n z d _ hd ht ih =>
    intro hn
    obtain ⟨hz, hne⟩ := ih (by omega)
    refine ⟨ht, layers_grow hz hne ?_ ⟨d, hd, rfl⟩⟩
    obtain ⟨w, hw, e, -⟩ := layers_joined n z hz hne
    rw [← e, hk w hw (by rw [e]; exact hne)]
    omega

theorem layers_nearest {k : Nat} (hk : ∀ x ∈ pixels shape, φ x ≠ 0 → it (φ x) = k) :
    ∀ (T : Nat), T ≤ k → ∀ (z : List Int), z ∈ pixels shape → layers shape kernel it φ T z ≠ 0 →
    ∃ y ∈ pixels shape, φ y = layers shape kernel it φ T z ∧ ∃ n ≤ T,
      ReachIn false shape kernel (fun x => layers shape kernel it φ T x = layers shape kernel it φ T z) y n z ∧
      ∀ w ∈ pixels shape, φ w ≠ 0 → ∀ m, Reach false shape kernel w m z → n ≤ m
  | 0, _, z, hz, _ => ⟨z, hz, rfl, 0, le_refl _, .here _ rfl, fun _ _ _ _ _ => Nat.zero_le _⟩
  | T + 1, hT, z, hz, h => by
    have lift : ∀ {l : Int} {v : List Int}, l ≠ 0 → layers shape kernel it φ T v = l →
        layers shape kernel it φ (T + 1) v = l := by
      rintro l v hl rfl
      exact layers_keep hl
    by_cases h0 : layers shape kernel it φ T z = 0
    · obtain ⟨y, hy, ey, hr⟩ := layers_joined (T + 1) z hz h
      refine ⟨y, hy, ey, T + 1, le_refl _, ReachIn.mono hr (fun _ hv => hv) (by omega), fun w hw hw0 m hm => ?_⟩
      by_contra hlt
      have := (layers_reached hk hw hw0 (Reach.mono hm (by omega : m ≤ T)) (by omega)).2
      exact this h0
    · obtain ⟨y, hy, ey, n, hn, hr, hmin⟩ := layers_nearest hk T (by omega) z hz h0
      rw [layers_keep h0]
      exact ⟨y, hy, ey, n, by omega, ReachIn.mono hr (fun v hv => lift h0 hv) (le_refl _), hmin⟩
end

/-! ### C91: a dilated label is in one piece with what it grew from -/

/-- Without periodicity every pixel with label `l` is joined to a pixel that had label `l` before, in at most
`iterations(l)` steps and through pixels with label `l` only. Missing: periodic images, for which this is
false (`C91_violated`). -/
theorem C91_partial (dbg : Bool) (h : DilateArgs false f kernel iterations) :
    ∃ r, dilate dbg f kernel iterations false = ok r ∧ r.shape = f.shape ∧
      ∀ x ∈ pixels f.shape, val r x ≠ 0 → ∃ y ∈ pixels f.shape, val f y = val r x ∧
        ReachIn false f.shape kernel (fun z => z ∈ pixels f.shape ∧ val r z = val r x) y
          (iterationsOf iterations (val r x)) x := by
  obtain ⟨r, hr, hs, hv⟩ := C59_layers dbg h (T := count iterations)
    (foldl_max_nat.1 (le_refl (count iterations))).2
  refine ⟨r, hr, hs, fun x hx hne => ?_⟩
  rw [hv x hx] at hne
  obtain ⟨y, hy, ey, hreach⟩ := layers_joined _ x hx hne
  have hin : ∀ {n z}, ReachIn false f.shape kernel (fun z => layers f.shape kernel (iterationsOf iterations)
      (val f) (count iterations) z = layers f.shape kernel (iterationsOf iterations) (val f)
      (count iterations) x) y n z → ReachIn false f.shape kernel
        (fun z => z ∈ pixels f.shape ∧ val r z = val r x) y n z := by
    intro n z hz
    induction hz with
    | here n e => exact .here n ⟨hy, by rw [hv y hy, hv x hx, e]⟩
    | step n z d _ hd ht e ih => exact .step n z d ih hd ht ⟨ht, by rw [hv _ ht, hv x hx, e]⟩
  rw [hv x hx]
  refine ⟨y, hy, ey, ?_⟩
  rw [← hv x hx] at hreach ⊢
  rw [hv x hx] at hreach
  have := ReachIn.mono (hin hreach) (fun _ hz => hz) (Nat.min_le_right _ _)
  rwa [← hv x hx] at this

theorem offset_line {d : List Int} (h : Offset (mk [1, 1, 1]) d) : d = [-1] ∨ d = [0] ∨ d = [1] := by
  obtain ⟨i, hi, -, rfl⟩ := h
  revert i
  decide

/-- With periodicity a label can end up cut off: two labels that grow towards each other across the edge of
the image are exchanged there. Pixel 0 has label 2, and both its neighbours have label 1. -/
theorem C91_violated : ∃ r, dilate true (mk [0, 1, 0, 0, 2, 0]) (mk [1, 1, 1]) [0, 2, 2] true = ok r ∧
    DilateArgs true (mk [0, 1, 0, 0, 2, 0]) (mk [1, 1, 1]) [0, 2, 2] ∧
    [0] ∈ pixels [6] ∧ val r [0] = 2 ∧
    ∀ y ∈ pixels [6], val (mk [0, 1, 0, 0, 2, 0]) y = val r [0] → ∀ n,
      ¬ ReachIn true [6] (mk [1, 1, 1]) (fun z => z ∈ pixels [6] ∧ val r z = val r [0]) y n [0] := by
  have hd : ((dilate true (mk [0, 1, 0, 0, 2, 0]) (mk [1, 1, 1]) [0, 2, 2] true).map fun r =>
      (r.shape, (pixels [6]).map (val r))) = ok ([6], [2, 1, 1, 2, 2, 1]) := by decide +kernel
  cases hr : dilate true (mk [0, 1, 0, 0, 2, 0]) (mk [1, 1, 1]) [0, 2, 2] true with
  | ok r =>
    rw [hr] at hd
    have e := (Prod.mk.inj (Outcome.ok.inj hd)).2
    have v0 : val r [0] = 2 := by injection e
    have v2 : val r [2] = 1 := by injection e with _ e; injection e with _ e; injection e
    have v5 : val r [5] = 1 := by
      injection e with _ e; injection e with _ e; injection e with _ e; injection e with _ e
      injection e with _ e; injection e
    refine ⟨r, rfl, ⟨⟨by decide, by decide, rfl, fun _ => by simp [mk, Nd.ofList]⟩, by decide,
      by unfold IsMask; decide, by decide⟩, by decide, v0, fun y hy ey n hreach => ?_⟩
    rw [v0] at ey hreach
    have y4 : y = [4] := by
      clear hreach
      revert y
      decide
    have key : ∀ {n z}, ReachIn true [6] (mk [1, 1, 1]) (fun z => z ∈ pixels [6] ∧ val r z = 2) y n z →
        z = [3] ∨ z = [4] := by
      intro n z h
      induction h with
      | here n _ => exact Or.inr y4
      | step n z d _ hd ht hp ih =>
        have v := hp.2
        rcases ih with rfl | rfl <;> rcases offset_line hd with rfl | rfl | rfl
        · rw [show target true [6] [3] [-1] = [2] by decide, v2] at v; omega
        · exact Or.inl (by decide)
        · exact Or.inr (by decide)
        · exact Or.inl (by decide)
        · exact Or.inr (by decide)
        · rw [show target true [6] [4] [1] = [5] by decide, v5] at v; omega
    rcases key hreach with h | h <;> simp at h
  | throws => rw [hr] at hd; cases hd
  | ub => rw [hr] at hd; cases hd
  | diverge => rw [hr] at hd; cases hd

/-! ### C92: the label of a nearest pixel -/

/-- Without periodicity, if all labels grow for the same number of iterations, a pixel gets the label of a
pixel with a label that is nearest to it. Missing: periodic images, for which this is false
(`C92_violated`). -/
theorem C92_partial (dbg : Bool) {k : Nat} (hl : Legal false f.shape kernel.shape) (h0 : 0 ∉ f.shape)
    (hm : IsMask kernel) (hf : ∀ x ∈ pixels f.shape, 0 ≤ val f x) :
    ∃ r, dilateSame dbg f kernel k false = ok r ∧ r.shape = f.shape ∧
      (∀ x ∈ pixels f.shape, val r x ≠ 0 → ∃ y n, Nearest false f kernel x y n ∧ n ≤ k ∧ val r x = val f y) ∧
      (∀ x ∈ pixels f.shape, val r x = 0 → ∀ y n, Nearest false f kernel x y n → k < n) := by
  obtain ⟨n, e1, -, ha, hi⟩ := same_args (k := k) hl h0 hm hf
  have hc : ∀ m ∈ List.replicate n k, m ≤ k := fun m hm => (List.eq_of_mem_replicate hm).le
  obtain ⟨r, hr, hs, hv⟩ := C59_layers dbg ha hc
  have hk : ∀ x ∈ pixels f.shape, val f x ≠ 0 → iterationsOf (List.replicate n k) (val f x) = k :=
    fun x hx _ => hi x hx
  refine ⟨r, by unfold dilateSame; rw [e1, ok_bind, hr], hs, fun x hx hne => ?_, fun x hx h y m hy => ?_⟩
  · rw [hv x hx] at hne ⊢
    obtain ⟨y, hy, ey, m, hm, hreach, hmin⟩ := layers_nearest hk k (le_refl k) x hx hne
    exact ⟨y, m, ⟨hy, by rw [ey]; exact hne, ReachIn.reach hreach, hmin⟩, hm, ey.symm⟩
  · obtain ⟨hy, hy0, hreach, -⟩ := hy
    by_contra hlt
    have := (layers_reached hk hy hy0 (Reach.mono hreach (by omega : m ≤ k)) (le_refl k)).2
    rw [← hv x hx] at this
    exact this h

/-- With periodicity a pixel can get the label of a pixel that is further away: pixel 0 is next to the pixel
with label 1, and it gets label 2. -/
theorem C92_violated : ∃ r, dilateSame true (mk [0, 1, 0, 0, 2, 0]) (mk [1, 1, 1]) 2 true = ok r ∧
    Legal true [6] [3] ∧ [0] ∈ pixels [6] ∧ val r [0] = 2 ∧
    ∀ y n, Nearest true (mk [0, 1, 0, 0, 2, 0]) (mk [1, 1, 1]) [0] y n →
      val (mk [0, 1, 0, 0, 2, 0]) y = 1 := by
  have hd : ((dilateSame true (mk [0, 1, 0, 0, 2, 0]) (mk [1, 1, 1]) 2 true).map fun r => val r [0]) =
      ok 2 := by decide +kernel
  cases hr : dilateSame true (mk [0, 1, 0, 0, 2, 0]) (mk [1, 1, 1]) 2 true with
  | ok r =>
    rw [hr] at hd
    refine ⟨r, rfl, ⟨by decide, by decide, rfl, fun _ => by simp⟩, by decide, Outcome.ok.inj hd, fun y n hn => ?_⟩
    obtain ⟨hy, hy0, hreach, hmin⟩ := hn
    have h1 : n ≤ 1 := hmin [1] (by decide) (by decide) 1 (.step 0 [1] [-1] (.here 0) ⟨[0], by decide⟩ (by decide))
    have h2 : ∀ {n z}, Reach true [6] (mk [1, 1, 1]) y n z → n ≤ 1 → z = [0] → y = [5] ∨ y = [0] ∨ y = [1] := by
      intro n z h hn hz
      cases h with
      | here n => exact Or.inr (Or.inl hz)
      | step n z d h hd ht =>
        obtain rfl : n = 0 := by omega
        cases h with
        | here =>
          clear hmin hreach ht
          rcases offset_line hd with rfl | rfl | rfl <;> (clear hd; revert y; decide)
    clear hmin
    rcases h2 hreach h1 rfl with rfl | rfl | rfl
    · exact absurd rfl hy0
    · exact absurd rfl hy0
    · rfl
  | throws => rw [hr] at hd; cases hd
  | ub => rw [hr] at hd; cases hd
  | diverge => rw [hr] at hd; cases hd

/-- Two labels in an image of two dimensions meet the hypotheses; the pixels between them are nearest to
either. -/
example : Legal false [2, 4] [3, 3] ∧ IsMask (Nd.ofList [3, 3] [0, 1, 0, 1, 1, 1, 0, 1, 0]) ∧
    (∀ x ∈ pixels [2, 4], 0 ≤ val (Nd.ofList [2, 4] [1, 0, 0, 2, 0, 0, 0, (0 : Int)]) x) ∧
    ((dilateSame true (Nd.ofList [2, 4] [1, 0, 0, 2, 0, 0, 0, 0]) (Nd.ofList [3, 3] [0, 1, 0, 1, 1, 1, 0, 1, 0]) 2
      false).map fun r => r.toList) = ok [1, 1, 2, 2, 1, 1, 2, 2] :=
  ⟨⟨by decide, by decide, rfl, by simp [Fits]⟩, by unfold IsMask; decide, by decide, by decide +kernel⟩

example : DilateArgs false (mk [1, 0, 0, 0, 2]) (mk [1, 1, 1]) [0, 1, 3] :=
  ⟨⟨by decide, by decide, rfl, by simp [Fits]⟩, by decide, by unfold IsMask; decide, by decide⟩

end Verif.Props
