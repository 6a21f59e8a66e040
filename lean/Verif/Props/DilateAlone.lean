import Verif.Props.Undisputed

/-!
# A label that meets no other label (C24)

With a number of iterations per label, periodic or not: a label that never meets another label grows exactly its own
number of iterations.
-/

namespace Verif.Dilate

open Verif Outcome Spec Cluster Nd Ens

variable {K : Nd Int} {it : List Nat} {g : Geo} {periodic : Bool} {φ₀ : List Int → Int}

/-- A pixel that is reached by one label only and that has a label, has that label. -/
theorem evolve_only (hg : periodic = true → g.Fits) (h0 : Start periodic g φ₀) {l : Int} {y : List Int}
    (hy : y ∈ pixels g.N)
    (hu : ∀ x ∈ pixels g.N, φ₀ x ≠ 0 → Reach periodic g.N K x (iterationsOf it (φ₀ x)) y → φ₀ x = l) {t : Nat}
    (hne : evolve g K it periodic φ₀ t y ≠ 0) : evolve g K it periodic φ₀ t y = l := by
  have hp := pos_core (periodic := periodic) hy
  obtain ⟨a, b, c, rfl, hc⟩ := inbox3.1 (mem_pixels.1 hy)
  obtain ⟨x, hx, ex, hr⟩ := evolve_sound (K := K) (it := it) hg h0 t a b c (Geo.Core.in hc) hne (by rw [hp]; exact hy)
  rw [hp, ← ex] at hr
  rw [← ex]
  exact hu x hx (by rw [ex]; exact hne) (Reach.mono hr (Nat.min_le_right _ _))

/-- A label that is alone where it grows reaches a pixel in the iteration in which it can. -/
theorem evolve_alone (hh : g.Half) (hK : K.shape = g.R) (hg : periodic = true → g.Fits)
    (h0 : Start periodic g φ₀) {x y : List Int} {n : Nat} (hx : x ∈ pixels g.N) (hl : φ₀ x ≠ 0)
    (hu : ∀ y, Reach periodic g.N K x (iterationsOf it (φ₀ x)) y → ∀ x' ∈ pixels g.N, φ₀ x' ≠ 0 →
      Reach periodic g.N K x' (iterationsOf it (φ₀ x')) y → φ₀ x' = φ₀ x)
    (hr : Reach periodic g.N K x n y) :
    n ≤ iterationsOf it (φ₀ x) → y ∈ pixels g.N ∧ evolve g K it periodic φ₀ n y = φ₀ x := by
  induction hr with
  | here n =>
    intro _
    obtain ⟨a, b, c, rfl, hc⟩ := inbox3.1 (mem_pixels.1 hx)
    exact ⟨hx, evolve_old hg h0 n a b c (Geo.Core.in hc) hl⟩
  | step n y d hr hd ht ih =>
    intro hn
    obtain ⟨hy, ih⟩ := ih (by omega)
    refine ⟨ht, evolve_only hg h0 ht (hu _ (Reach.mono (.step n y d hr hd ht) hn)) ?_⟩
    obtain ⟨a, b, c, rfl, hc⟩ := inbox3.1 (mem_pixels.1 hy)
    obtain ⟨i, j, k, e, hi⟩ := move3 hh hK hc hd
    have hne : evolve g K it periodic φ₀ n [a, b, c] ≠ 0 := by rw [ih]; exact hl
    have hgr : growing K it n (evolve g K it periodic φ₀ n) (pixels g.N) (evolve g K it periodic φ₀ n) [i, j, k] ≠ 0 := by
      by_cases hz : evolve g K it periodic φ₀ n [i, j, k] = 0
      · exact growing_new hy ⟨hne, by rw [ih]; omega, hz, d, hd, e.symm⟩
      · exact growing_keep hz
    show stepF g K it periodic n _ _ ≠ 0
    unfold stepF target
    rw [e]
    cases periodic with
    | false => exact hgr
    | true => exact copies_carry (hg rfl) hi hgr

end Verif.Dilate

namespace Verif.Props

open Verif Outcome Spec Cluster Nd Ens Dilate

variable {periodic : Bool} {f kernel : Nd Int} {iterations : List Nat}

/-- The pixels that a label can reach: in at most its number of iterations kernel steps from its pixels. -/
def Grows (periodic : Bool) (f kernel : Nd Int) (iterations : List Nat) (l : Int) (x : List Int) : Prop :=
  ∃ y ∈ pixels f.shape, val f y = l ∧ Reach periodic f.shape kernel y (iterationsOf iterations l) x

/-- Label `l` meets no other label: no pixel that it can reach can be reached by another label. -/
def Alone (periodic : Bool) (f kernel : Nd Int) (iterations : List Nat) (l : Int) : Prop :=
  ∀ x, Grows periodic f kernel iterations l x → ∀ l', l' ≠ 0 → Grows periodic f kernel iterations l' x → l' = l

/-- Periodic or not, each label with its own number of iterations: a label that meets no other label has in the result
exactly the pixels that it can reach. -/
theorem C24_alone (dbg : Bool) (h : DilateArgs periodic f kernel iterations) :
    ∃ r, dilate dbg f kernel iterations periodic = ok r ∧ r.shape = f.shape ∧
      ∀ l, l ≠ 0 → Alone periodic f kernel iterations l →
        ∀ x ∈ pixels f.shape, val r x = l ↔ Grows periodic f kernel iterations l x := by
  rw [dilate_release dbg h]
  have hl := h.legal
  have hlab := (DilateArgs.facts h).1
  have hf3 : f.shape.length ≤ 3 := by rw [hl.same]; exact hl.rank
  obtain ⟨g, hN, hR, hhalf, hfits, hstart, r, hr, hs, hv⟩ := dilate_refines_release hl h.image hlab
  obtain ⟨r', hr', -, -, hsound, -⟩ := dilate_facts_release hl h.image hlab
  obtain rfl : r' = r := by rw [hr] at hr'; injection hr' with e; exact e.symm
  have up : ∀ {x}, x ∈ pixels f.shape → raise x ∈ pixels g.N := fun hx => by
    rw [hN]; exact (mem_pixels_raise hf3 (inbox_length (mem_pixels.1 hx))).2 hx
  have down : ∀ {z}, z ∈ pixels g.N → ∃ x ∈ pixels f.shape, raise x = z := fun hz => by
    rw [hN, pixels_raise hf3] at hz
    exact List.mem_map.1 hz
  have hK : kernel.atleast3d.shape = g.R := hR.symm
  refine ⟨r', hr', hs, fun l hl0 ha x hx => ⟨fun e => ?_, ?_⟩⟩
  · obtain ⟨y, hy, ey, hreach⟩ := hsound x hx (by rw [e]; exact hl0)
    rw [e] at ey hreach
    exact ⟨y, hy, ey, hreach⟩
  · rintro ⟨y, hy, ey, hreach⟩
    have hyl := inbox_length (mem_pixels.1 hy)
    have e0 := extend_image (periodic := periodic) hf3 hy
    have low : ∀ {y}, y ∈ pixels f.shape → ∀ {n z}, Reach periodic g.N kernel.atleast3d (raise y) n z →
        ∃ x, z = raise x ∧ x.length = f.shape.length ∧ Reach periodic f.shape kernel y n x := by
      intro y hy n z hr
      rw [hN] at hr
      exact reach_lower hf3 hl.same.symm (inbox_length (mem_pixels.1 hy)) hr
    have hu : ∀ z, Reach periodic g.N kernel.atleast3d (raise y)
        (iterationsOf iterations (f.atleast3d.extend (padMode periodic) 0 (raise y))) z → ∀ x' ∈ pixels g.N,
        f.atleast3d.extend (padMode periodic) 0 x' ≠ 0 →
        Reach periodic g.N kernel.atleast3d x'
          (iterationsOf iterations (f.atleast3d.extend (padMode periodic) 0 x')) z →
        f.atleast3d.extend (padMode periodic) 0 x' = f.atleast3d.extend (padMode periodic) 0 (raise y) := by
      intro z h1 x' hx' hne h2
      obtain ⟨w, hw, rfl⟩ := down hx'
      rw [e0, ey] at h1
      rw [extend_image hf3 hw] at hne h2
      rw [extend_image hf3 hw, e0, ey]
      obtain ⟨p, rfl, hpl, h1⟩ := low hy h1
      obtain ⟨q, eq, hql, h2⟩ := low hw h2
      obtain rfl : p = q := raise_inj (by omega) (by omega) eq
      exact ha p ⟨y, hy, ey, h1⟩ _ hne ⟨w, hw, rfl, h2⟩
    obtain ⟨hxl, hreach'⟩ := reach_raise hf3 hl.same.symm hyl hreach
    rw [← hN] at hreach'
    obtain ⟨hmem, he⟩ := evolve_alone (it := iterations) hhalf hK hfits hstart (up hy)
      (by rw [e0, ey]; exact hl0) hu hreach' (by rw [e0, ey])
    have hne := evolve_stay (K := kernel.atleast3d) (it := iterations) hfits hmem
      (by rw [he, e0, ey]; exact hl0) (count iterations - iterationsOf iterations l)
    have hle := iterationsOf_le_count iterations l
    rw [show iterationsOf iterations l + (count iterations - iterationsOf iterations l) = count iterations by omega]
      at hne
    rw [hv x hx]
    have := evolve_only hfits hstart hmem (hu _ (by rw [e0, ey]; exact hreach')) hne
    rw [this, e0, ey]

/-- A label that meets no other label stays in one piece with what it grew from. -/
theorem C24_alone_piece (dbg : Bool) (h : DilateArgs periodic f kernel iterations) :
    ∃ r, dilate dbg f kernel iterations periodic = ok r ∧ r.shape = f.shape ∧
      ∀ x ∈ pixels f.shape, val r x ≠ 0 → Alone periodic f kernel iterations (val r x) →
        ∃ y ∈ pixels f.shape, val f y = val r x ∧
          ReachIn periodic f.shape kernel (fun z => z ∈ pixels f.shape ∧ val r z = val r x) y
            (iterationsOf iterations (val r x)) x := by
  obtain ⟨r, h1, h2, h3⟩ := C24_alone dbg h
  refine ⟨r, h1, h2, fun x hx hne ha => ?_⟩
  obtain ⟨y, hy, ey, hr⟩ := (h3 _ hne ha x hx).1 rfl
  refine ⟨y, hy, ey, ?_⟩
  have key : ∀ z ∈ pixels f.shape, Reach periodic f.shape kernel y (iterationsOf iterations (val r x)) z →
      val r z = val r x := fun z hz hrz => (h3 _ hne ha z hz).2 ⟨y, hy, ey, hrz⟩
  have walk : ∀ {n : Nat} {z : List Int}, Reach periodic f.shape kernel y n z →
      n ≤ iterationsOf iterations (val r x) →
      ReachIn periodic f.shape kernel (fun z => z ∈ pixels f.shape ∧ val r z = val r x) y n z := by
    intro n z h
    induction h with
    | here n => exact fun _ => .here n ⟨hy, key y hy (.here _)⟩
    | step n z d h hd ht ih =>
      exact fun hn => .step n z d (ih (by omega)) hd ht ⟨ht, key _ ht (Reach.mono (.step n z d h hd ht) hn)⟩
  exact walk hr (le_refl _)

/-- If no two labels meet, the result is known: the pixels that a label can reach have that label, the others none. -/
theorem C24_all_alone (dbg : Bool) (h : DilateArgs periodic f kernel iterations)
    (ha : ∀ x ∈ pixels f.shape, val f x ≠ 0 → Alone periodic f kernel iterations (val f x)) :
    ∃ r, dilate dbg f kernel iterations periodic = ok r ∧ r.shape = f.shape ∧
      ∀ x ∈ pixels f.shape, (∀ l, l ≠ 0 → Grows periodic f kernel iterations l x → val r x = l) ∧
        ((∀ l, l ≠ 0 → ¬ Grows periodic f kernel iterations l x) → val r x = 0) := by
  obtain ⟨r, h1, h2, h3⟩ := C24_alone dbg h
  obtain ⟨r', h1', -, h4⟩ := C24_own dbg h
  obtain rfl : r' = r := by rw [h1] at h1'; injection h1' with e; exact e.symm
  refine ⟨r', h1, h2, fun x hx => ⟨fun l hl0 hg => ?_, fun hn => ?_⟩⟩
  · obtain ⟨y, hy, ey, hr⟩ := hg
    have := ha y hy (by rw [ey]; exact hl0)
    rw [ey] at this
    exact (h3 l hl0 this x hx).2 ⟨y, hy, ey, hr⟩
  · by_contra hne
    exact hn _ hne (h4 x hx hne)

/-- The pixels that are reached on a line in so many steps, as a list. -/
def ball (periodic : Bool) (s : List Nat) (y : List Int) : Nat → List (List Int)
  | 0 => [y]
  | n + 1 => ball periodic s y n ++
    (ball periodic s y n).flatMap fun z => [[-1], [0], [1]].map fun d => target periodic s z d

theorem mem_ball {s : List Nat} {y : List Int} : ∀ {n : Nat} {x : List Int},
    Reach periodic s (mk [1, 1, 1]) y n x → x ∈ ball periodic s y n
  | 0, _, h => by
    cases h
    simp [ball]
  | n + 1, x, h => by
    cases h with
    | here =>
      have := mem_ball (Reach.here (periodic := periodic) (shape := s) (kernel := mk [1, 1, 1]) (x := y) n)
      exact List.mem_append_left _ this
    | step _ z d h hd ht =>
      refine List.mem_append_right _ (List.mem_flatMap.2 ⟨z, mem_ball h, List.mem_map.2 ⟨d, ?_, rfl⟩⟩)
      rcases offset_line hd with rfl | rfl | rfl <;> simp

/-- A periodic line with label 1 with two iterations, which grows across the edge, and label 2 with one iteration. -/
example : DilateArgs true (mk [1, 0, 0, 0, 0, 2, 0, 0, 0]) (mk [1, 1, 1]) [0, 2, 1] ∧
    (∀ x ∈ pixels [9], val (mk [1, 0, 0, 0, 0, 2, 0, 0, 0]) x ≠ 0 →
      Alone true (mk [1, 0, 0, 0, 0, 2, 0, 0, 0]) (mk [1, 1, 1]) [0, 2, 1] (val (mk [1, 0, 0, 0, 0, 2, 0, 0, 0]) x)) ∧
    ((dilate true (mk [1, 0, 0, 0, 0, 2, 0, 0, 0]) (mk [1, 1, 1]) [0, 2, 1] true).map fun r => r.toList) =
      ok [1, 1, 1, 0, 2, 2, 2, 1, 1] := by
  refine ⟨⟨⟨by decide, by decide, rfl, fun _ => by decide⟩, by decide, by unfold IsMask; decide, by decide⟩, ?_,
    by decide +kernel⟩
  intro x hx hx0 y ⟨p, hp, ep, h1⟩ l hl ⟨q, hq, eq, h2⟩
  have vals : ∀ y ∈ pixels [9], val (mk [1, 0, 0, 0, 0, 2, 0, 0, 0]) y ≠ 0 → y = [0] ∨ y = [5] := by decide
  rw [← ep] at h1 hx0 ⊢
  rw [← eq] at h2 hl ⊢
  have h1 := mem_ball h1
  have h2 := mem_ball h2
  rcases vals p hp hx0 with rfl | rfl <;> rcases vals q hq hl with rfl | rfl
  · rfl
  · exact absurd h2 ((by decide : ∀ y ∈ ball true [9] [0] 2, y ∉ ball true [9] [5] 1) y h1)
  · exact absurd h2 ((by decide : ∀ y ∈ ball true [9] [5] 1, y ∉ ball true [9] [0] 2) y h1)
  · rfl

end Verif.Props
