import Verif.Lemmas.Dummy
import Verif.Lemmas.Average

/-! # Properties of `dummy_circles` -/

namespace Verif.Props

open Verif Outcome Spec Dummy

/-! ### C53: the discs -/

/-- The image has the given shape, is one on the pixels that are covered by a circle, and zero elsewhere. -/
theorem C53_pixels (dbg : Bool) (m n : Nat) (row col r : List Int) (periodic : Bool)
    (h1 : row.length = col.length) (h2 : row.length = r.length) (h0 : periodic = true → 0 < m ∧ 0 < n) :
    ∃ out, dummyCircles dbg [m, n] row col r periodic = ok out ∧ out.shape = [m, n] ∧
      ∀ x, InBox [m, n] x →
        (Covered periodic [m, n] (circlesOf row col r) x → val out x = 1) ∧
        (¬ Covered periodic [m, n] (circlesOf row col r) x → val out x = 0) := by
  obtain ⟨out, e, h⟩ := dummy_rep dbg h1 h2 h0
  exact ⟨out, e, h.1, h.2⟩

/-- In integers: a displacement is in the disc if the square of its length is at most `(r - 1)²`. -/
theorem C53_disc (r di dj : Int) : InDisc r di dj ↔ 1 ≤ r ∧ di ^ 2 + dj ^ 2 ≤ (r - 1) ^ 2 :=
  inDisc_iff

/-- With assertions, lists of different lengths are rejected, and so are shapes that are not two-dimensional. -/
theorem C53_throws (shape : List Nat) (row col r : List Int) (periodic : Bool)
    (h : row.length ≠ col.length ∨ row.length ≠ r.length ∨ shape.length ≠ 2) :
    dummyCircles true shape row col r periodic = throws := by
  unfold dummyCircles circlesWith gassert
  by_cases h1 : row.length = col.length
  · by_cases h2 : row.length = r.length
    · have h3 : shape.length ≠ 2 := by
        rcases h with h | h | h
        · exact (h h1).elim
        · exact (h h2).elim
        · exact h
      rw [decide_eq_true h1, decide_eq_true h2, decide_eq_false h3]
      rfl
    · rw [decide_eq_true h1, decide_eq_false h2]
      rfl
  · rw [decide_eq_false h1]
    rfl

/-- `pow(m, 0.5)` in `double`: a relative error of at most `2 ^ -52` (one unit in the last place), none for
squares. -/
def AccurateRoot (ρ : Nat → ℝ) : Prop :=
  (∀ m, |ρ m - Real.sqrt m| ≤ Real.sqrt m / 2 ^ 52) ∧ ∀ k, ρ (k * k) = k

/-- Rounding does not change the image, for radii up to `2 ^ 24`. -/
theorem C53_double {ρ : Nat → ℝ} (hρ : AccurateRoot ρ) (dbg : Bool) (shape : List Nat) (row col r : List Int)
    (periodic : Bool) (hr : ∀ a ∈ r, |a| ≤ 2 ^ 24) :
    circlesWith (fun m => ⌈ρ m⌉) dbg shape row col r periodic = dummyCircles dbg shape row col r periodic := by
  refine circlesWith_congr fun a ha m hm => ?_
  refine ceil_root ?_ (hρ.1 m) ?_
  · have h1 : a ^ 2 ≤ (2 ^ 24) ^ 2 := by
      rw [← sq_abs]
      exact pow_le_pow_left₀ (abs_nonneg a) (hr a ha) 2
    norm_num at h1
    omega
  · rintro k rfl
    exact hρ.2 k

/-- The exact root is one; so is one that is rounded down by a relative `2 ^ -52`, except for squares. -/
example : AccurateRoot (fun m => Real.sqrt m) := by
  refine ⟨fun m => by rw [sub_self, abs_zero]; positivity, fun k => ?_⟩
  dsimp only
  rw [Nat.cast_mul, Real.sqrt_mul_self (Nat.cast_nonneg k)]

open Classical in
example : AccurateRoot (fun m => if ∃ k, k * k = m then Real.sqrt m else Real.sqrt m * (1 - 1 / 2 ^ 52)) := by
  refine ⟨fun m => ?_, fun k => ?_⟩
  · dsimp only
    split
    · rw [sub_self, abs_zero]; positivity
    · have h : Real.sqrt (m : ℝ) * (1 - 1 / 2 ^ 52) - Real.sqrt m = -(Real.sqrt m / 2 ^ 52) := by ring
      rw [h, abs_neg, abs_of_nonneg (by positivity)]
  · dsimp only
    rw [if_pos ⟨k, rfl⟩, Nat.cast_mul, Real.sqrt_mul_self (Nat.cast_nonneg k)]

/-- A disc of radius 2 that is clipped, and one that wraps. -/
example : ((dummyCircles true [3, 4] [0] [0] [2] false).map Nd.toList) =
    ok [1, 1, 0, 0, 1, 0, 0, 0, 0, 0, 0, 0] := by decide +kernel
example : ((dummyCircles true [3, 4] [0] [0] [2] true).map Nd.toList) =
    ok [1, 1, 0, 1, 1, 0, 0, 0, 1, 0, 0, 0] := by decide +kernel

/-! ### C54: translations, order -/

/-- Shifting all centres shifts the periodic image. -/
theorem C54_shift (dbg : Bool) (m n : Nat) (row col r : List Int) (t0 t1 : Int)
    (h1 : row.length = col.length) (h2 : row.length = r.length) (h0 : 0 < m ∧ 0 < n) :
    ∃ out out', dummyCircles dbg [m, n] row col r true = ok out ∧
      dummyCircles dbg [m, n] (row.map fun x => x + t0) (col.map fun x => x + t1) r true = ok out' ∧
      ∀ x, InBox [m, n] x → val out' (wrap [m, n] (move x [t0, t1])) = val out x := by
  obtain ⟨out, e, -, h⟩ := C53_pixels dbg m n row col r true h1 h2 fun _ => h0
  obtain ⟨out', e', -, h'⟩ := C53_pixels dbg m n (row.map fun x => x + t0) (col.map fun x => x + t1) r true
    (by simpa using h1) (by simpa using h2) fun _ => h0
  refine ⟨out, out', e, e', fun x hx => ?_⟩
  have hz : 0 ∉ [m, n] := by simp; omega
  obtain ⟨a, y, ha, hy, rfl⟩ := List.forall₂_cons_left_iff.1 hx
  obtain ⟨b, z, hb, hz', rfl⟩ := List.forall₂_cons_left_iff.1 hy
  obtain rfl := List.forall₂_nil_left_iff.1 hz'
  have hmem : ∀ c : Circle, c ∈ circlesOf (row.map fun x => x + t0) (col.map fun x => x + t1) r ↔
      (⟨c.row - t0, c.col - t1, c.r⟩ : Circle) ∈ circlesOf row col r := by
    have : circlesOf (row.map fun x => x + t0) (col.map fun x => x + t1) r =
        (circlesOf row col r).map fun c => ⟨c.row + t0, c.col + t1, c.r⟩ := by
      unfold circlesOf
      rw [List.zip_map_left, List.zipWith_map, List.map_zipWith]
      rfl
    intro c
    rw [this, List.mem_map]
    constructor
    · rintro ⟨d, hd, rfl⟩
      simpa using hd
    · intro hd
      exact ⟨_, hd, by simp⟩
  have key : Covered true [m, n] (circlesOf (row.map fun x => x + t0) (col.map fun x => x + t1) r)
      (wrap [m, n] (move [a, b] [t0, t1])) ↔ Covered true [m, n] (circlesOf row col r) [a, b] := by
    have em : ∀ (u v t p : Int), (u + t) % p = (v + t) % p ↔ u % p = v % p := by
      intro u v t p
      exact Int.emod_add_cancel_right t
    have hw : wrap [m, n] [a, b] = [a, b] := Ens.wrap_of_inbox hx
    constructor
    · rintro ⟨c, hc, di, dj, hd, hp⟩
      refine ⟨_, (hmem c).1 hc, di, dj, hd, ?_⟩
      rw [← hw]
      simp only [pixelOf, wrap, move, List.zipWith_cons_cons, List.zipWith_nil_right, if_true, List.cons.injEq,
        and_true] at hp ⊢
      rw [← em _ _ t0, ← em _ _ t1 (n : Int)]
      refine ⟨?_, ?_⟩
      · rw [← hp.1]; congr 1; ring
      · rw [← hp.2]; congr 1; ring
    · rintro ⟨c, hc, di, dj, hd, hp⟩
      refine ⟨⟨c.row + t0, c.col + t1, c.r⟩, (hmem _).2 (by simpa using hc), di, dj, hd, ?_⟩
      rw [← hw] at hp
      simp only [pixelOf, wrap, move, List.zipWith_cons_cons, List.zipWith_nil_right, if_true, List.cons.injEq,
        and_true] at hp ⊢
      rw [← em _ _ t0, ← em _ _ t1 (n : Int)] at hp
      refine ⟨?_, ?_⟩
      · rw [← hp.1]; congr 1; ring
      · rw [← hp.2]; congr 1; ring
  by_cases hc : Covered true [m, n] (circlesOf row col r) [a, b]
  · rw [(h _ hx).1 hc, (h' _ (wrap_inbox rfl hz)).1 (key.2 hc)]
  · rw [(h _ hx).2 hc, (h' _ (wrap_inbox rfl hz)).2 (fun hk => hc (key.1 hk))]

/-- More circles: more pixels. -/
theorem C54_more (dbg : Bool) (m n : Nat) (row col r row' col' r' : List Int) (periodic : Bool)
    (h1 : row.length = col.length) (h2 : row.length = r.length)
    (h1' : row'.length = col'.length) (h2' : row'.length = r'.length) (h0 : periodic = true → 0 < m ∧ 0 < n)
    (hs : ∀ c ∈ circlesOf row col r, c ∈ circlesOf row' col' r') :
    ∃ out out', dummyCircles dbg [m, n] row col r periodic = ok out ∧
      dummyCircles dbg [m, n] row' col' r' periodic = ok out' ∧
      ∀ x, InBox [m, n] x → val out x ≤ val out' x := by
  obtain ⟨out, e, -, h⟩ := C53_pixels dbg m n row col r periodic h1 h2 h0
  obtain ⟨out', e', -, h'⟩ := C53_pixels dbg m n row' col' r' periodic h1' h2' h0
  refine ⟨out, out', e, e', fun x hx => ?_⟩
  by_cases hc : Covered periodic [m, n] (circlesOf row col r) x
  · obtain ⟨c, hm, d⟩ := hc
    rw [(h x hx).1 ⟨c, hm, d⟩, (h' x hx).1 ⟨c, hs c hm, d⟩]
  · rw [(h x hx).2 hc]
    by_cases hc' : Covered periodic [m, n] (circlesOf row' col' r') x
    · rw [(h' x hx).1 hc']; omega
    · rw [(h' x hx).2 hc']

/-- The order and the repetition of circles do not matter. -/
theorem C54_order (dbg : Bool) (m n : Nat) (row col r row' col' r' : List Int) (periodic : Bool)
    (h1 : row.length = col.length) (h2 : row.length = r.length)
    (h1' : row'.length = col'.length) (h2' : row'.length = r'.length) (h0 : periodic = true → 0 < m ∧ 0 < n)
    (hs : ∀ c, c ∈ circlesOf row col r ↔ c ∈ circlesOf row' col' r') :
    ∃ out out', dummyCircles dbg [m, n] row col r periodic = ok out ∧
      dummyCircles dbg [m, n] row' col' r' periodic = ok out' ∧
      ∀ x, InBox [m, n] x → val out x = val out' x := by
  obtain ⟨out, out', e, e', h⟩ := C54_more dbg m n row col r row' col' r' periodic h1 h2 h1' h2' h0
    fun c hc => (hs c).1 hc
  obtain ⟨out2, out2', f, f', h'⟩ := C54_more dbg m n row' col' r' row col r periodic h1' h2' h1 h2 h0
    fun c hc => (hs c).2 hc
  rw [e'] at f
  rw [e] at f'
  cases f
  cases f'
  exact ⟨out, out', e, e', fun x hx => le_antisymm (h x hx) (h' x hx)⟩

/-- The periodic image contains the clipped one. -/
theorem C54_clipped (dbg : Bool) (m n : Nat) (row col r : List Int)
    (h1 : row.length = col.length) (h2 : row.length = r.length) (h0 : 0 < m ∧ 0 < n) :
    ∃ out out', dummyCircles dbg [m, n] row col r false = ok out ∧
      dummyCircles dbg [m, n] row col r true = ok out' ∧
      ∀ x, InBox [m, n] x → val out x ≤ val out' x := by
  obtain ⟨out, e, -, h⟩ := C53_pixels dbg m n row col r false h1 h2 (by simp)
  obtain ⟨out', e', -, h'⟩ := C53_pixels dbg m n row col r true h1 h2 fun _ => h0
  refine ⟨out, out', e, e', fun x hx => ?_⟩
  by_cases hc : Covered false [m, n] (circlesOf row col r) x
  · rw [(h x hx).1 hc]
    obtain ⟨c, hm, di, dj, hd, hp⟩ := hc
    have hp : [c.row + di, c.col + dj] = x := hp
    rw [(h' x hx).1 ⟨c, hm, di, dj, hd, by rw [hp]; exact Ens.wrap_of_inbox hx⟩]
  · rw [(h x hx).2 hc]
    by_cases hc' : Covered true [m, n] (circlesOf row col r) x
    · rw [(h' x hx).1 hc']; omega
    · rw [(h' x hx).2 hc']

example : ∀ c, c ∈ circlesOf [0, 1, 0] [2, 3, 2] [4, 5, 4] ↔ c ∈ circlesOf [1, 0] [3, 2] [5, 4] := by
  intro c
  simp [circlesOf]
  tauto

/-! ### C63: random circles -/

/-- For images of at least 20 by 20 pixels: a binary image of the given shape, for all numbers of the random
generator. *Missing:* smaller images, see `C63_violated`. -/
theorem C63_partial (dbg : Bool) (randint : Int → Nat → Int) (random : Nat → ℝ) (m n : Nat) (periodic : Bool)
    (hm : 20 ≤ m) (hn : 20 ≤ n) :
    ∃ out, randomDummyCircles dbg randint random [m, n] periodic = ok out ∧ out.shape = [m, n] ∧
      ∀ x, InBox [m, n] x → val out x = 0 ∨ val out x = 1 := by
  have hNM : ¬ m / 20 * (n / 20) = 0 := by
    have h1 : 0 < m / 20 := Nat.div_pos hm (by omega)
    have h2 : 0 < n / 20 := Nat.div_pos hn (by omega)
    exact (Nat.mul_pos h1 h2).ne'
  have hg : gassert dbg (decide ([m, n].length = 2)) = ok () := by simp [gassert]
  have hr : ∃ row col r, randomCircles randint random m n = ok (row, col, r) ∧ row.length = col.length ∧
      row.length = r.length := by
    unfold randomCircles
    simp only [hNM, if_false]
    exact ⟨_, _, _, rfl, by simp only [List.length_map], by simp only [List.length_map]⟩
  obtain ⟨row, col, r, er, h1, h2⟩ := hr
  unfold randomDummyCircles
  rw [hg]
  simp only [er, ok_bind]
  obtain ⟨out, e, hs, h⟩ := C53_pixels dbg m n row col r periodic h1 h2 (fun _ => ⟨by omega, by omega⟩)
  refine ⟨out, e, hs, fun x hx => ?_⟩
  by_cases hc : Covered periodic [m, n] (circlesOf row col r) x
  · exact Or.inr ((h x hx).1 hc)
  · exact Or.inl ((h x hx).2 hc)

/-- The numbers of the generator: `randint k` gives one of `0, ..., k - 1`, `random` a number in `[0, 1)`. -/
def GeneratorRange (randint : Int → Nat → Int) (random : Nat → ℝ) : Prop :=
  (∀ k i, 0 < k → 0 ≤ randint k i ∧ randint k i < k) ∧ ∀ i, 0 ≤ random i ∧ random i < 1

/-- The image is that of one circle in each cell of a grid of `N = m / 20` by `M = n / 20` cells: the centre of circle
`i M + j` differs from the corner `(i m / N, j n / M)` of its cell by at most half a cell in each direction, and its radius
is such that `N M` discs of half this radius cover at most 30% of the image. *Missing:* smaller images, see
`C63_violated`. -/
theorem C63_grid_partial (dbg : Bool) {randint : Int → Nat → Int} {random : Nat → ℝ} (hg : GeneratorRange randint random)
    (m n : Nat) (periodic : Bool) (hm : 20 ≤ m) (hn : 20 ≤ n) :
    ∃ row col r, randomDummyCircles dbg randint random [m, n] periodic = dummyCircles dbg [m, n] row col r periodic ∧
      row.length = m / 20 * (n / 20) ∧ col.length = m / 20 * (n / 20) ∧ r.length = m / 20 * (n / 20) ∧
      ∀ i j, i < m / 20 → j < n / 20 →
        let c := i * (n / 20) + j
        (i * m / (m / 20) : Int) - m / (2 * (m / 20)) ≤ row.getD c 0 ∧
        row.getD c 0 < (i * m / (m / 20) : Int) + m / (2 * (m / 20)) ∧
        (j * n / (n / 20) : Int) - n / (2 * (n / 20)) ≤ col.getD c 0 ∧
        col.getD c 0 < (j * n / (n / 20) : Int) + n / (2 * (n / 20)) ∧
        0 ≤ r.getD c 0 ∧
        ((m / 20 : Nat) * (n / 20 : Nat) : ℝ) * (Real.pi * (r.getD c 0 / 2) ^ 2) ≤ 0.3 * (m * n : ℝ) := by
  have hN : 0 < m / 20 := Nat.div_pos hm (by omega)
  have hM : 0 < n / 20 := Nat.div_pos hn (by omega)
  have hNM : ¬ m / 20 * (n / 20) = 0 := (Nat.mul_pos hN hM).ne'
  have ha : gassert dbg (decide ([m, n].length = 2)) = ok () := by simp [gassert]
  unfold randomDummyCircles randomCircles
  rw [ha]
  simp only [hNM, if_false, ok_bind]
  refine ⟨_, _, _, rfl, ?_, ?_, ?_, ?_⟩
  · rw [List.length_map, grid_length]
  · rw [List.length_map, grid_length]
  · rw [List.length_map, grid_length]
  intro i j hi hj
  show _ ∧ _
  have hd : ∀ k : Nat, 20 ≤ k → (0 : Int) < 2 * ((k / (2 * (k / 20)) : Nat) : Int) := by
    intro k hk
    have h1 : 0 < k / 20 := Nat.div_pos hk (by omega)
    have h2 : 0 < k / (2 * (k / 20)) := Nat.div_pos (by omega) (by omega)
    omega
  have gI : ∀ f : Nat × Nat → Int, (((List.range (m / 20)).flatMap fun i =>
      (List.range (n / 20)).map fun j => (i, j)).map f).getD (i * (n / 20) + j) 0 = f (i, j) :=
    fun f => grid_getD f hi hj
  have h1 := hg.1 _ (3 * (i * (n / 20) + j)) (hd m hm)
  have h2 := hg.1 _ (3 * (i * (n / 20) + j) + 1) (hd n hn)
  have h3 := hg.2 (3 * (i * (n / 20) + j) + 2)
  rw [gI, gI, gI]
  push_cast at h1 h2 ⊢
  refine ⟨by omega, by omega, by omega, by omega, ?_, ?_⟩
  · exact Int.floor_nonneg.2 (mul_nonneg (mul_nonneg (by exact_mod_cast Int.floor_nonneg.2 (Real.sqrt_nonneg _))
      (by norm_num)) h3.1)
  · generalize random (3 * (i * (n / 20) + j) + 2) = u at h3
    have hNr : (0 : ℝ) < ((m / 20 : Nat) : ℝ) := by exact_mod_cast hN
    have hMr : (0 : ℝ) < ((n / 20 : Nat) : ℝ) := by exact_mod_cast hM
    generalize ((m / 20 : Nat) : ℝ) = N at *
    generalize ((n / 20 : Nat) : ℝ) = M at *
    have hp := Real.pi_pos
    have hnm : (0 : ℝ) ≤ 0.3 * ((m : ℝ) * n) := by positivity
    generalize 0.3 * ((m : ℝ) * n) = A at *
    have hs := Real.sq_sqrt (show 0 ≤ A / (Real.pi * (N * M)) by positivity)
    have hs0 := Real.sqrt_nonneg (A / (Real.pi * (N * M)))
    have hR := Int.floor_le (Real.sqrt (A / (Real.pi * (N * M))))
    have hR0 : (0 : ℝ) ≤ (⌊Real.sqrt (A / (Real.pi * (N * M)))⌋ : Int) := by
      exact_mod_cast Int.floor_nonneg.2 hs0
    generalize (⌊Real.sqrt (A / (Real.pi * (N * M)))⌋ : Int) = R at *
    generalize Real.sqrt (A / (Real.pi * (N * M))) = q at *
    have hf := Int.floor_le ((R : ℝ) * 2 * u)
    have hf0 : (0 : ℝ) ≤ (⌊(R : ℝ) * 2 * u⌋ : Int) := by
      have hq : (0 : ℝ) ≤ (R : ℝ) * 2 * u := mul_nonneg (mul_nonneg hR0 (by norm_num)) h3.1
      exact Int.cast_nonneg (Int.floor_nonneg.2 hq)
    generalize (⌊(R : ℝ) * 2 * u⌋ : Int) = z at *
    have hz : (z : ℝ) / 2 ≤ q := by nlinarith [mul_nonneg hR0 (sub_nonneg.2 h3.2.le)]
    have hz2 : ((z : ℝ) / 2) ^ 2 ≤ A / (Real.pi * (N * M)) := by
      rw [← hs]
      exact pow_le_pow_left₀ (by positivity) hz 2
    rw [le_div_iff₀ (by positivity)] at hz2
    nlinarith

/-- A generator that always gives the smallest numbers, for an image of 45 by 60 pixels. -/
example : GeneratorRange (fun _ _ => 0) (fun _ => 1 / 2) ∧ 20 ≤ 45 ∧ 20 ≤ 60 :=
  ⟨⟨fun k _ hk => ⟨le_refl _, hk⟩, fun _ => by norm_num⟩, by norm_num, by norm_num⟩

/-- For smaller images: a conversion to an integer of a division by zero, for all numbers of the generator. -/
theorem C63_violated (dbg : Bool) (randint : Int → Nat → Int) (random : Nat → ℝ) (m n : Nat) (periodic : Bool)
    (h : m < 20 ∨ n < 20) : randomDummyCircles dbg randint random [m, n] periodic = ub := by
  have hNM : m / 20 * (n / 20) = 0 := by
    rcases h with h | h
    · rw [Nat.div_eq_of_lt h, Nat.zero_mul]
    · rw [Nat.div_eq_of_lt h, Nat.mul_zero]
  have hg : gassert dbg (decide ([m, n].length = 2)) = ok () := by simp [gassert]
  unfold randomDummyCircles randomCircles
  rw [hg]
  simp only [hNM, if_true, ok_bind, ub_bind]

end Verif.Props
