import Verif.Lemmas.LineLong
import Verif.Props.PathModes

/-!
# Long paths (C56, C107)

Modes `actual` and `full` take two crossings that are less than 1e-6 of the line apart for one. Pixels that contain
more of the line than that are never left out.
-/

namespace Verif.Props

open Verif Verif.Path Outcome Spec

/-- **C56** (partial): for displacements of at most a million, every pixel that contains at least a millionth of the
line is a row, in both modes. Missing: pixels that contain less, see `C56_long_violated`. -/
theorem C56_stay_partial (junk : ℚ) {fuel : Nat} {x1 : List Int} (h3 : x1.length ≤ 3)
    (hb : ∀ a ∈ x1, a.natAbs ≤ 1000000) (hne : manhattan (origin x1.length) x1 ≠ 0)
    (hf : manhattan (origin x1.length) x1 ≤ fuel) {mode : Mode} (hm : mode = .actual ∨ mode = .full) :
    ∃ ret, path junk fuel (origin x1.length) x1 mode = ok ret ∧ ∀ y, Stays (1 / 1000000) x1 y → y ∈ ret := by
  obtain ⟨ret, h1, -, -⟩ := C30_origin_partial junk h3 hb hne hf hm
  refine ⟨ret, h1, fun y ⟨a, b, ha, hb1, hab, hy⟩ => ?_⟩
  have hab' : a ≤ b := by
    have : (0 : ℚ) < 1 / 1000000 := by norm_num
    linarith
  have hlast : ∀ {out : List (List Int)} {x : List Int}, out.getLast? = some x → x ∈ out :=
    fun h => List.mem_of_getLast? h
  have he : eps ≤ b - a := by unfold eps; norm_num at hab ⊢; exact hab
  rcases hm with rfl | rfl
  · have h1' : line actualRows junk fuel (List.replicate x1.length 0) x1 = ok ret := h1
    exact line_long h3 hb (fun ps τ T a b c d => by
      obtain ⟨out, e, hl, -⟩ := actual_rows (le_refl _) ps τ T a b c d
      exact ⟨out, e, hlast hl⟩) hne h1' ha hb1 he (hy a (le_refl _) hab') (hy b hab' (le_refl _))
  · have h1' : line (fun tm => fullRows tm []) junk fuel (List.replicate x1.length 0) x1 = ok ret := h1
    exact line_long h3 hb (fun ps τ T a b c d => by
      obtain ⟨out, e, hl, -⟩ := full_rows (le_refl _) ps τ T a b c d
      exact ⟨out, e, hlast hl⟩) hne h1' ha hb1 he (hy a (le_refl _) hab') (hy b hab' (le_refl _))

/-- More than a millionth of the segment to (1000, 500) lies in the pixel (1, 1). -/
example : Stays (1 / 1000000) [1000, 500] [1, 1] := by
  refine ⟨1 / 1000, 3 / 2000, by norm_num, by norm_num, by norm_num, fun t h1 h2 => ?_⟩
  refine List.Forall₂.cons ?_ (List.Forall₂.cons ?_ List.Forall₂.nil) <;> rw [abs_le] <;> constructor <;>
    push_cast <;> linarith

/-- Half a pixel further along the line, the deviation is still at most half a pixel. -/
private theorem still {n : Nat} {d v s : ℚ} (hn : 0 < n) (hd : |d| ≤ 1 / 2) (hdv : 0 ≤ d * v) (hv : |v| ≤ n)
    (hs0 : 0 ≤ s) (hs : s ≤ 1 / (2 * n)) : |d - s * v| ≤ 1 / 2 := by
  have hn' : (0 : ℚ) < n := by exact_mod_cast hn
  have hsv : |s * v| ≤ 1 / 2 := by
    rw [abs_mul, abs_of_nonneg hs0]
    calc s * |v| ≤ 1 / (2 * n) * n := mul_le_mul hs hv (abs_nonneg _) (by positivity)
      _ = 1 / 2 := by field_simp
  have hsd : 0 ≤ d * (s * v) := by rw [mul_left_comm]; exact mul_nonneg hs0 hdv
  rw [abs_le] at hd hsv ⊢
  generalize s * v = w at *
  rcases lt_trichotomy d 0 with h | h | h
  · have : w ≤ 0 := by
      by_contra hc
      push Not at hc
      nlinarith
    constructor <;> linarith
  · constructor <;> linarith
  · have : 0 ≤ w := by
      by_contra hc
      push Not at hc
      nlinarith
    constructor <;> linarith

private theorem rounded_abs {a : Int} {n k : Nat} {r : Int} (hn : 0 < n) (h : Rounded 0 a n k r) :
    |(r : ℚ) - k / n * a| ≤ 1 / 2 := by
  have hn' : (0 : ℚ) < n := by exact_mod_cast hn
  have e : (r : ℚ) - k / n * a = (2 * n * r - 2 * k * a) / (2 * n) := by
    field_simp
  rw [e, abs_div, abs_of_pos (by positivity : (0 : ℚ) < 2 * n), div_le_iff₀ (by positivity)]
  have : |(2 * n * r - 2 * k * a : ℚ)| ≤ n := by
    rw [abs_le]
    rcases le_total 0 a with h0 | h0
    · obtain ⟨-, h1, h2⟩ := h.1 h0
      have h1' : -(n : ℚ) < 2 * n * (r - 0) - 2 * k * (a - 0) := by exact_mod_cast h1
      have h2' : 2 * n * (r - 0) - 2 * k * (a - 0) ≤ (n : ℚ) := by exact_mod_cast h2
      constructor <;> linarith
    · obtain ⟨-, h1, h2⟩ := h.2 h0
      have h1' : -(n : ℚ) < 2 * n * (0 - r) - 2 * k * (0 - a) := by exact_mod_cast h1
      have h2' : 2 * n * (0 - r) - 2 * k * (0 - a) ≤ (n : ℚ) := by exact_mod_cast h2
      constructor <;> linarith
  linarith

/-- Along the axis of the largest displacement there is no rounding. -/
private theorem rounded_exact {a : Int} {n k : Nat} {r : Int} (hn : 0 < n) (ha : a.natAbs = n)
    (h : Rounded 0 a n k r) : (r : ℚ) - k / n * a = 0 := by
  have hn' : (n : ℚ) ≠ 0 := by exact_mod_cast hn.ne'
  have hr : r = k * a.sign := by
    apply rounded_unique hn h
    have hs : a.sign * n = a := by rw [← ha]; exact Int.sign_mul_natAbs a
    constructor
    · intro h0
      have : a.sign = 1 := Int.sign_eq_one_of_pos (by omega)
      rw [this] at hs ⊢
      rw [← hs]
      refine ⟨by omega, ?_, ?_⟩
      · have : 2 * (n : Int) * (k * 1 - 0) - 2 * k * (1 * n - 0) = 0 := by ring
        rw [this]; omega
      · have : 2 * (n : Int) * (k * 1 - 0) - 2 * k * (1 * n - 0) = 0 := by ring
        rw [this]; omega
    · intro h0
      have : a.sign = -1 := Int.sign_eq_neg_one_of_neg (by omega)
      rw [this] at hs ⊢
      rw [← hs]
      have e : 2 * (n : Int) * (0 - k * -1) - 2 * k * (0 - -1 * n) = 0 := by ring
      refine ⟨by omega, ?_, ?_⟩ <;> rw [e] <;> omega
  have hs : ((a.sign : Int) : ℚ) * n = a := by
    rw [← ha]
    exact sign_mul_natAbs a
  rw [hr, ← hs]
  push_cast
  field_simp
  ring

private theorem rounded_zero {a : Int} {n : Nat} {r : Int} (hn : 0 < n)
    (h : Rounded 0 a n 0 r) : (r : ℚ) - (0 : Nat) / n * a = 0 := by
  have : r = 0 := by
    apply rounded_unique hn h
    constructor <;> intro h0 <;> refine ⟨le_refl _, ?_, ?_⟩ <;> simp <;> omega
  rw [this]
  simp

private theorem rounded_end {a : Int} {n : Nat} {r : Int} (hn : 0 < n)
    (h : Rounded 0 a n n r) : (r : ℚ) - n / n * a = 0 := by
  have hn' : (n : ℚ) ≠ 0 := by exact_mod_cast hn.ne'
  have : r = a := by
    apply rounded_unique hn h
    constructor <;> intro h0 <;> refine ⟨h0, ?_, ?_⟩ <;> rw [sub_self] <;> omega
  rw [this, div_self hn', one_mul, sub_self]

/-- A pixel of Bresenham's path contains half a step of the line, if all its deviations are to one side. -/
private theorem stays_of {n k : Nat} (hn : 0 < n) (hk : k ≤ n) {vs ys : List Int} (hl : vs.length = ys.length)
    (hv : ∀ v ∈ vs, v.natAbs ≤ n)
    (hr : ∀ (i : Nat) (h1 : i < vs.length) (h2 : i < ys.length), Rounded 0 vs[i] n k ys[i]) {σ : ℚ}
    (hσ : σ = 1 ∨ σ = -1)
    (hd : ∀ (i : Nat) (h1 : i < vs.length) (h2 : i < ys.length), 0 ≤ σ * (((ys[i] : ℚ) - k / n * vs[i]) * vs[i])) :
    Stays (1 / (2 * n)) vs ys := by
  have hn' : (0 : ℚ) < n := by exact_mod_cast hn
  have hv' : ∀ v ∈ vs, |(v : ℚ)| ≤ n := fun v hm => by
    rw [← Int.cast_abs, Int.abs_eq_natAbs]
    exact_mod_cast hv v hm
  have e1 : (k : ℚ) / n ≤ 1 := by rw [div_le_one hn']; exact_mod_cast hk
  have e0 : (0 : ℚ) ≤ (k : ℚ) / n := by positivity
  -- the direction to go in
  have main : ∀ τ : ℚ, (τ = 1 ∨ τ = -1) → (τ = 1 → k < n) → (τ = -1 → 0 < k) →
      (∀ (i : Nat) (h1 : i < vs.length) (h2 : i < ys.length), 0 ≤ τ * (((ys[i] : ℚ) - k / n * vs[i]) * vs[i])) →
      Stays (1 / (2 * n)) vs ys := by
    intro τ hτ hτ1 hτ2 hd
    have key : ∀ s : ℚ, 0 ≤ s → s ≤ 1 / (2 * n) →
        List.Forall₂ (fun (a c : Int) => |(c : ℚ) - (k / n + τ * s) * a| ≤ 1 / 2) vs ys := by
      intro s hs0 hs
      rw [List.forall₂_iff_get]
      refine ⟨hl, fun i h1 h2 => ?_⟩
      have := still (n := n) (d := (ys[i] : ℚ) - k / n * vs[i]) (v := τ * vs[i]) (s := s) hn
        (rounded_abs hn (hr i h1 h2)) (by rw [mul_left_comm]; exact hd i h1 h2) (by
          have hτa : |τ| = 1 := by rcases hτ with rfl | rfl <;> norm_num
          rw [abs_mul, hτa, one_mul]
          exact hv' _ (List.getElem_mem _)) hs0 hs
      have e : (ys[i] : ℚ) - k / n * vs[i] - s * (τ * vs[i]) = (ys[i] : ℚ) - (k / n + τ * s) * vs[i] := by ring
      rw [e] at this
      exact this
    rcases hτ with rfl | rfl
    · refine ⟨k / n, k / n + 1 / (2 * n), e0, ?_, by linarith, fun t h1 h2 => ?_⟩
      · have := hτ1 rfl
        have h' : (k : ℚ) + 1 ≤ n := by exact_mod_cast this
        rw [div_add_div _ _ hn'.ne' (by positivity), div_le_one (by positivity)]
        nlinarith
      · have := key (t - k / n) (by linarith) (by linarith)
        rwa [one_mul, add_sub_cancel] at this
    · refine ⟨k / n - 1 / (2 * n), k / n, ?_, e1, by linarith, fun t h1 h2 => ?_⟩
      · have := hτ2 rfl
        have h' : (1 : ℚ) ≤ k := by exact_mod_cast this
        rw [sub_nonneg, div_le_div_iff₀ (by positivity) hn']
        nlinarith
      · have := key (k / n - t) (by linarith) (by linarith)
        rwa [neg_one_mul, neg_sub, add_sub_cancel] at this
  rcases Nat.eq_zero_or_pos k with h0 | h0
  · refine main 1 (Or.inl rfl) (fun _ => by omega) (fun h => by norm_num at h) fun i h1 h2 => ?_
    have := hr i h1 h2
    rw [h0] at this ⊢
    rw [rounded_zero hn this]
    simp
  · rcases Nat.lt_or_ge k n with hkn | hkn
    · exact main σ hσ (fun _ => hkn) (fun _ => h0) hd
    · have : k = n := by omega
      refine main (-1) (Or.inr rfl) (fun h => by norm_num at h) (fun _ => h0) fun i h1 h2 => ?_
      have hri := hr i h1 h2
      rw [this] at hri ⊢
      rw [rounded_end hn hri]
      simp

/-- **C107**: in the plane, every pixel of the path of mode Bresenham contains half a step of the line: the fraction
`1 / (2 n)` for a path of `n + 1` pixels. -/
theorem C107_bresenham_stays (junk : ℚ) (fuel : Nat) {x1 : List Int} (h2 : x1.length ≤ 2)
    (hne : origin x1.length ≠ x1) :
    ∃ ret, path junk fuel (origin x1.length) x1 .bresenham = ok ret ∧
      ∀ y ∈ ret, Stays (1 / (2 * (chebyshev (origin x1.length) x1 : ℚ))) x1 y := by
  have hl : (origin x1.length).length = x1.length := by simp [origin]
  have hn := chebyshev_pos hl hne
  obtain ⟨ret, h, hlen, hrow⟩ := C27_line junk fuel (by omega) hl hne
  refine ⟨ret, h, fun y hy => ?_⟩
  obtain ⟨k, hk, rfl⟩ := List.mem_iff_getElem.1 hy
  have ek : ret[k] = ret.getD k [] := by simp [List.getD, hk]
  obtain ⟨l1, hr⟩ := hrow k hk
  rw [ek]
  have ho : ∀ i, (origin x1.length).getD i 0 = 0 := by
    intro i
    simp only [origin, List.getD, List.getElem?_replicate]
    split <;> rfl
  have hr' : ∀ (i : Nat) (h1 : i < x1.length) (h2 : i < (ret.getD k []).length),
      Rounded 0 x1[i] (chebyshev (origin x1.length) x1) k (ret.getD k [])[i] := by
    intro i h1 h2
    have := hr i (by omega)
    rw [ho] at this
    generalize ret.getD k [] = u at *
    simpa [List.getD, h1, h2] using this
  have hch : ∀ v ∈ x1, v.natAbs ≤ chebyshev (origin x1.length) x1 := by
    intro v hv
    obtain ⟨i, hi, rfl⟩ := List.mem_iff_getElem.1 hv
    have := delta_le hl (i := i) (by omega)
    rw [ho, Int.abs_eq_natAbs, sub_zero] at this
    have e : x1.getD i 0 = x1[i] := by simp [List.getD, hi]
    rw [e] at this
    omega
  have hle : k ≤ chebyshev (origin x1.length) x1 := by omega
  have hlen' : x1.length = (ret.getD k []).length := by omega
  -- one of the two has the largest displacement
  have hdom : ∃ i, ∃ hi : i < x1.length, x1[i].natAbs = chebyshev (origin x1.length) x1 := by
    match x1, h2, hn with
    | [], _, hn => simp [chebyshev, origin] at hn
    | [u], _, hn => exact ⟨0, by simp, by simp [chebyshev, origin]⟩
    | [u, v], _, hn =>
      rcases le_total u.natAbs v.natAbs with huv | huv
      · refine ⟨1, by simp, ?_⟩
        simp [chebyshev, origin]
        omega
      · refine ⟨0, by simp, ?_⟩
        simp [chebyshev, origin]
        omega
  obtain ⟨i0, hi0, hdom⟩ := hdom
  generalize ret.getD k [] = u at *
  generalize chebyshev (origin x1.length) x1 = n at *
  have hex := rounded_exact hn hdom (hr' i0 hi0 (by omega))
  have hσ : ∃ σ : ℚ, (σ = 1 ∨ σ = -1) ∧ ∀ (i : Nat) (h1 : i < x1.length) (h2 : i < u.length),
      0 ≤ σ * (((u[i] : ℚ) - k / n * x1[i]) * x1[i]) := by
    by_cases hj : 1 - i0 < x1.length
    · have hj' : 1 - i0 < u.length := by omega
      have split : ∀ (i : Nat), i < x1.length → i = i0 ∨ i = 1 - i0 := fun i hi => by omega
      rcases le_total 0 (((u[1 - i0] : ℚ) - k / n * x1[1 - i0]) * x1[1 - i0]) with hp | hp
      · refine ⟨1, Or.inl rfl, fun i h1 h2 => ?_⟩
        rcases split i h1 with rfl | rfl
        · rw [hex]; simp
        · rw [one_mul]; exact hp
      · refine ⟨-1, Or.inr rfl, fun i h1 h2 => ?_⟩
        rcases split i h1 with rfl | rfl
        · rw [hex]; simp
        · linarith
    · refine ⟨1, Or.inl rfl, fun i h1 h2 => ?_⟩
      have : i = i0 := by omega
      subst this
      rw [hex]; simp
  obtain ⟨σ, hσ1, hσ2⟩ := hσ
  exact stays_of hn hle hlen' hch hr' hσ1 hσ2

/-- **C107** (partial): in the plane the paths are nested for displacements up to half a million. Missing: longer
paths. -/
theorem C107_plane_partial (junk : ℚ) {fuel : Nat} {x1 : List Int} (h2 : x1.length ≤ 2)
    (hb : ∀ a ∈ x1, a.natAbs ≤ 500000) (hne : manhattan (origin x1.length) x1 ≠ 0)
    (hf : manhattan (origin x1.length) x1 ≤ fuel) :
    ∃ b a f, path junk fuel (origin x1.length) x1 .bresenham = ok b ∧
      path junk fuel (origin x1.length) x1 .actual = ok a ∧ path junk fuel (origin x1.length) x1 .full = ok f ∧
      (∀ y ∈ b, y ∈ a) ∧ a.Sublist f := by
  have hl : (origin x1.length).length = x1.length := by simp [origin]
  obtain ⟨b, eb, hb'⟩ := C107_bresenham_stays junk fuel h2 (origin_ne hne)
  obtain ⟨a, ea, ha⟩ := C56_stay_partial junk (by omega) (fun v hv => (hb v hv).trans (by omega)) hne hf (Or.inl rfl)
  have hn := chebyshev_pos hl (origin_ne hne)
  have hle : chebyshev (origin x1.length) x1 ≤ 500000 := by
    clear hf hne hb' ha eb ea hn hl h2
    induction x1 with
    | nil => simp [chebyshev, origin]
    | cons v x ih =>
      have h1 := ih fun a h => hb a (by simp [h])
      have h2 := hb v (by simp)
      have e : chebyshev (origin (v :: x).length) (v :: x) = max v.natAbs (chebyshev (origin x.length) x) := by
        simp [chebyshev, origin, List.replicate_succ]
      rw [e]
      omega
  have hn' : (0 : ℚ) < chebyshev (origin x1.length) x1 := by exact_mod_cast hn
  have hle' : (chebyshev (origin x1.length) x1 : ℚ) ≤ 500000 := by exact_mod_cast hle
  have hst : ∀ y ∈ b, Stays (1 / 1000000) x1 y := by
    intro y hy
    obtain ⟨s, t, h1, h2, h3, h4⟩ := hb' y hy
    refine ⟨s, t, h1, h2, le_trans ?_ h3, h4⟩
    rw [div_le_div_iff₀ (by norm_num) (by positivity)]
    linarith
  rcases C107_actual_in_full junk fuel (by omega) hl (origin_ne hne) with ⟨p, q, ep, eq, hs⟩ | ⟨ep, -⟩
  · rw [ea] at ep
    cases ep
    exact ⟨b, a, q, eb, ea, eq, fun y hy => ha y (hst y hy), hs⟩
  · rw [ea] at ep
    cases ep

/-- A path of nearly half a million pixels that is far from a diagonal. -/
example : (∀ a ∈ ([499999, -70001] : List Int), a.natAbs ≤ 500000) ∧
    manhattan (origin 2) [499999, -70001] ≠ 0 := by decide

end Verif.Props
