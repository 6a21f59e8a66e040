import Verif.Model.CenterFloat
import Verif.Lemmas.Center
import Verif.Lemmas.Rounding

/-! # Centers in any arithmetic -/

set_option linter.unusedSectionVars false

namespace Verif.Center

open Verif Outcome Spec Ens Cluster

variable {K : Type} [Zero K] [Add K] [Mul K] [Div K] [Neg K] [NatCast K] [IntCast K] {n : Nat}

/-- The position of a pixel. -/
def coordsIn (n : Nat) (x : List Int) : Fin n → K := fun j => ((x.getD j 0 : Int) : K)

/-- The sizes of an image. -/
def boxIn (n : Nat) (shape : List Nat) : Fin n → K := fun j => ((shape.getD j 0 : Nat) : K)

theorem adaptIn_box {shape : List Nat} (hn : shape.length = n) :
    (fun j : Fin n => adaptIn (K := K) shape (j.cast hn.symm)) = boxIn n shape := by
  funext j
  have : (j : Nat) < shape.length := by rw [hn]; exact j.isLt
  simp [adaptIn, boxIn, this]

theorem labelsCentersIn_ok (dbg : Bool) (T : Nat → Fin n → Trig K) (labels : Nd Int)
    (hn : labels.shape.length = n) (h0 : 0 < n) (names : List Int) (periodic : Bool) :
    ∃ rows, labelsCentersIn dbg T labels hn names periodic = .ok rows ∧ rows.length = names.length ∧
      ∀ i (hi : i < names.length), rows[i]? = some (centerIn (T i) (boxIn n labels.shape)
        ((argwhere labels names[i]).map (coordsIn n)) periodic) := by
  obtain ⟨rows, h1, h2, h3⟩ := rows_ok (fun i name =>
    if (fromIndicesIn (K := K) n (argwhere labels name)).length * n = 0 then none else some (centerIn (T i)
      (boxIn n labels.shape) (fromIndicesIn n (argwhere labels name)) periodic)) names 0
    (List.replicate names.length fun _ => 0) (by simp)
  refine ⟨rows, ?_, by simpa using h2, fun i hi => ?_⟩
  · rw [← h1]
    unfold labelsCentersIn
    rw [adaptIn_box hn, hn]
    have hg : gassert dbg (decide (0 < n)) = .ok () := by simp [gassert, h0]
    rw [hg]
    show forM _ _ _ = _
    congr 1
    funext ret l
    by_cases hc : (fromIndicesIn (K := K) n (argwhere labels l.1)).length * n = 0
    · simp [hc]
    · simp [hc]
  · rw [h3, dif_pos ⟨Nat.zero_le _, by omega⟩]
    simp only [Nat.sub_zero]
    by_cases hc : (fromIndicesIn (K := K) n (argwhere labels names[i])).length * n = 0
    · rw [if_pos hc]
      have : fromIndicesIn (K := K) n (argwhere labels names[i]) = [] := by
        rcases Nat.mul_eq_zero.1 hc with h | h
        · exact List.length_eq_zero_iff.1 h
        · omega
      have e : (argwhere labels names[i]).map (coordsIn (K := K) n) = [] := this
      rw [e]
      simp only [List.getElem?_replicate, hi, if_true]
      congr 1
      funext j
      simp [centerIn]
    · rw [if_neg hc]
      rfl

theorem gatherIn {w : Nd K} : ∀ (l : List (List Int)) (acc : List K), (∀ x ∈ l, InBox w.shape x) →
    forM l acc (fun w' x => do
      let v ← w.read x
      pure (w' ++ [v])) = .ok (acc ++ l.map (val w))
  | [], acc, _ => by simp [forM]
  | x :: l, acc, h => by
    rw [forM, read_ok (h x List.mem_cons_self)]
    simp only [Outcome.ok_bind, Outcome.pure_eq, Outcome.bind]
    have := gatherIn l (acc ++ [val w x]) fun y hy => h y (List.mem_cons_of_mem _ hy)
    simp only [Outcome.pure_eq] at this
    rw [this, List.append_assoc]
    rfl

theorem labelsCentersOfMassIn_ok (dbg : Bool) (T : Nat → Fin n → Trig K) (labels : Nd Int)
    (hn : labels.shape.length = n) (h0 : 0 < n) (weights : Nd K) (hw : weights.shape = labels.shape)
    (names : List Int) (periodic : Bool) :
    ∃ rows, labelsCentersOfMassIn dbg T labels hn weights names periodic = .ok rows ∧
      rows.length = names.length ∧
      ∀ i (hi : i < names.length), rows[i]? = some (centerOfMassIn (T i) (boxIn n labels.shape)
        ((argwhere labels names[i]).map (coordsIn n)) ((argwhere labels names[i]).map (val weights)) periodic) := by
  obtain ⟨rows, h1, h2, h3⟩ := rows_ok (fun i name =>
    if (fromIndicesIn (K := K) n (argwhere labels name)).length * n = 0 then none else some (centerOfMassIn (T i)
      (boxIn n labels.shape) (fromIndicesIn n (argwhere labels name)) ((argwhere labels name).map (val weights))
        periodic)) names 0
    (List.replicate names.length fun _ => 0) (by simp)
  refine ⟨rows, ?_, by simpa using h2, fun i hi => ?_⟩
  · rw [← h1]
    unfold labelsCentersOfMassIn
    rw [adaptIn_box hn, hn, hw]
    have hg : gassert dbg (decide (0 < n)) = .ok () := by simp [gassert, h0]
    have hg' : gassert dbg (decide (labels.shape = labels.shape)) = .ok () := by simp [gassert]
    rw [hg, hg']
    show forM _ _ _ = _
    congr 1
    funext ret l
    dsimp only
    rw [gatherIn (w := weights) (argwhere labels l.1) [] fun x hx => by rw [hw]; exact argwhere_inbox hx]
    simp only [Outcome.ok_bind, List.nil_append]
    by_cases hc : (fromIndicesIn (K := K) n (argwhere labels l.1)).length * n = 0
    · simp [hc]
    · simp [hc]
  · rw [h3, dif_pos ⟨Nat.zero_le _, by omega⟩]
    simp only [Nat.sub_zero]
    by_cases hc : (fromIndicesIn (K := K) n (argwhere labels names[i])).length * n = 0
    · rw [if_pos hc]
      have : fromIndicesIn (K := K) n (argwhere labels names[i]) = [] := by
        rcases Nat.mul_eq_zero.1 hc with h | h
        · exact List.length_eq_zero_iff.1 h
        · omega
      have e : (argwhere labels names[i]).map (coordsIn (K := K) n) = [] := this
      rw [e]
      simp only [List.getElem?_replicate, hi, if_true]
      congr 1
      funext j
      simp [centerOfMassIn]
    · rw [if_neg hc]
      rfl

/-! ### Real numbers: the same definitions -/

/-- The functions of the real numbers. -/
noncomputable def realTrig (negative : Bool) : Trig ℝ := ⟨Real.pi, Real.cos, Real.sin, atan2 negative⟩

theorem sumIn_real (l : List ℝ) : sumIn l = l.sum := by
  rw [List.sum_eq_foldl]
  rfl

theorem meanIn_real (l : List ℝ) : meanIn l = mean l := by rw [meanIn, mean, sumIn_real]

theorem averageIn_real (l w : List ℝ) : averageIn l w = average l w := by
  rw [averageIn, average, sumIn_real, sumIn_real]

theorem centerIn_real (negative : Fin n → Bool) (shape : Fin n → ℝ) (positions : List (Fin n → ℝ)) (periodic : Bool) :
    centerIn (fun j => realTrig (negative j)) shape positions periodic = center negative shape positions periodic := by
  unfold centerIn center
  simp only [meanIn_real, realTrig, Nat.cast_ofNat]

theorem centerOfMassIn_real (negative : Fin n → Bool) (shape : Fin n → ℝ) (positions : List (Fin n → ℝ)) (w : List ℝ)
    (periodic : Bool) : centerOfMassIn (fun j => realTrig (negative j)) shape positions w periodic =
      centerOfMass negative shape positions w periodic := by
  unfold centerOfMassIn centerOfMass
  simp only [averageIn_real, realTrig, Nat.cast_ofNat]

theorem labelsCentersIn_real (dbg : Bool) (negative : Nat → Fin n → Bool) (labels : Nd Int)
    (hn : labels.shape.length = n) (names : List Int) (periodic : Bool) :
    labelsCentersIn dbg (fun i j => realTrig (negative i j)) labels hn names periodic =
      labelsCenters dbg negative labels hn names periodic := by
  unfold labelsCentersIn labelsCenters
  simp only [centerIn_real]
  rfl

theorem labelsCentersOfMassIn_real (dbg : Bool) (negative : Nat → Fin n → Bool) (labels : Nd Int)
    (hn : labels.shape.length = n) (weights : Nd ℝ) (names : List Int) (periodic : Bool) :
    labelsCentersOfMassIn dbg (fun i j => realTrig (negative i j)) labels hn weights names periodic =
      labelsCentersOfMass dbg negative labels hn weights names periodic := by
  unfold labelsCentersOfMassIn labelsCentersOfMass
  simp only [centerOfMassIn_real]
  rfl

/-! ### Rounded arithmetic -/

variable {rnd : ℚ → ℚ} {u : ℚ}

/-- Sums of whole numbers are exact. -/
theorem foldl_ints (hr : ExactInts rnd) : ∀ (l : List ℤ) (s : ℤ), |s| + (l.map fun k => |k|).sum ≤ 2 ^ 53 →
    (l.map fun k : ℤ => (⟨(k : ℚ)⟩ : Fl rnd)).foldl (fun s x => s + x) ⟨(s : ℚ)⟩ = ⟨((s + l.sum : ℤ) : ℚ)⟩
  | [], s, _ => by simp
  | a :: l, s, h => by
    simp only [List.map_cons, List.sum_cons, List.foldl_cons] at h ⊢
    have h1 := abs_add_le s a
    have h2 : 0 ≤ (l.map fun k => |k|).sum := List.sum_nonneg fun x hx => by
      obtain ⟨y, -, rfl⟩ := List.mem_map.1 hx
      exact abs_nonneg y
    have e : (⟨(s : ℚ)⟩ : Fl rnd) + ⟨(a : ℚ)⟩ = ⟨((s + a : ℤ) : ℚ)⟩ := by
      ext
      change rnd ((s : ℚ) + a) = _
      have := hr (s + a) (by linarith)
      push_cast at this ⊢
      exact this
    rw [e, foldl_ints hr l (s + a) (by linarith), add_assoc]

theorem sumIn_ints (hr : ExactInts rnd) {l : List ℤ} (h : (l.map fun k => |k|).sum ≤ 2 ^ 53) :
    sumIn (l.map fun k : ℤ => (⟨(k : ℚ)⟩ : Fl rnd)) = ⟨(l.sum : ℤ)⟩ := by
  have := foldl_ints hr l 0 (by simpa using h)
  rw [zero_add] at this
  rw [← this]
  rfl

/-- Sums of any numbers: one rounding per term. -/
theorem foldl_near (hu : 0 ≤ u) (hR : RelError rnd u) {α : Type} {φ : α → Fl rnd} {ψ χ : α → ℚ} {m : ℕ} :
    ∀ (l : List α), (∀ x ∈ l, Near u m (φ x) (ψ x) (χ x)) → ∀ {k : ℕ} {a : Fl rnd} {b c : ℚ}, m ≤ k → Near u k a b c →
      Near u (k + l.length) ((l.map φ).foldl (fun s x => s + x) a) (b + (l.map ψ).sum) (c + (l.map χ).sum)
  | [], _, k, a, b, c, _, ha => by simpa using ha
  | x :: l, h, k, a, b, c, hk, ha => by
    simp only [List.map_cons, List.sum_cons, List.foldl_cons, List.length_cons]
    have := foldl_near hu hR l (fun y hy => h y (List.mem_cons_of_mem _ hy)) (k := k + 1) (by omega)
      (ha.add hu hR (h x List.mem_cons_self) hk)
    rw [show k + (l.length + 1) = k + 1 + l.length by omega, ← add_assoc, ← add_assoc]
    exact this

theorem sumIn_near (hu : 0 ≤ u) (hR : RelError rnd u) {α : Type} {φ : α → Fl rnd} {ψ χ : α → ℚ} {m : ℕ} (l : List α)
    (h : ∀ x ∈ l, Near u m (φ x) (ψ x) (χ x)) :
    Near u (m + l.length) (sumIn (l.map φ)) (l.map ψ).sum (l.map χ).sum := by
  have := foldl_near hu hR l h (le_refl m) (near_zero m)
  simpa [sumIn] using this

/-- A sum over a sum of weights. -/
theorem near_weighted (hu : 0 ≤ u) (hR : RelError rnd u) {k : ℕ} {a a' : Fl rnd} {b c c' : ℚ} (h : Near u k a b c)
    (h' : Near u k a' c' c') (hn : (1 + u) ^ k - 1 < 1) (hpos : 0 < c') :
    |(a / a').val - b / c'| ≤ (u + (1 + u) * (2 * ((1 + u) ^ k - 1) / (1 - ((1 + u) ^ k - 1)))) * (c / c') := by
  obtain ⟨h1, h2⟩ := h
  obtain ⟨h3, h4⟩ := h'
  set γ := (1 + u) ^ k - 1 with hγ
  have hγ0 : 0 ≤ γ := gamma_nonneg hu k
  have hc : 0 ≤ c := (abs_nonneg _).trans h1
  have ha' : (1 - γ) * c' ≤ a'.val := by
    have := (abs_le.1 h4).1
    linarith
  have hpa : 0 < a'.val := lt_of_lt_of_le (mul_pos (by linarith) hpos) ha'
  have hb : |b / c'| ≤ c / c' := by
    rw [abs_div, abs_of_pos hpos]
    exact div_le_div_of_nonneg_right h1 hpos.le
  have hx : |a.val / a'.val - b / c'| ≤ 2 * γ / (1 - γ) * (c / c') := by
    have e3 : a.val / a'.val - b / c' = ((a.val - b) * c' - b * (a'.val - c')) / (a'.val * c') := by
      field_simp
      ring
    rw [e3, abs_div, abs_of_pos (mul_pos hpa hpos), div_le_iff₀ (mul_pos hpa hpos)]
    have e4 : |(a.val - b) * c' - b * (a'.val - c')| ≤ 2 * γ * c * c' := by
      refine (abs_sub _ _).trans ?_
      rw [abs_mul, abs_mul, abs_of_pos hpos]
      have k1 := mul_le_mul_of_nonneg_right h2 hpos.le
      have k2 := mul_le_mul h1 h4 (abs_nonneg _) hc
      linarith
    refine e4.trans ?_
    have e5 : 2 * γ / (1 - γ) * (c / c') * (a'.val * c') = 2 * γ / (1 - γ) * c * a'.val := by
      field_simp
    rw [e5]
    have e6 : 2 * γ * c * c' = 2 * γ / (1 - γ) * c * ((1 - γ) * c') := by
      have : 1 - γ ≠ 0 := by linarith
      field_simp
    rw [e6]
    exact mul_le_mul_of_nonneg_left ha' (mul_nonneg (div_nonneg (by linarith) (by linarith)) hc)
  change |rnd (a.val / a'.val) - b / c'| ≤ _
  generalize a.val / a'.val = x at hx
  have e1 := hR x
  have e2 : |x| ≤ |x - b / c'| + |b / c'| := by
    have := abs_add_le (x - b / c') (b / c')
    rwa [sub_add_cancel] at this
  have e3 : |rnd x - b / c'| ≤ |rnd x - x| + |x - b / c'| := by
    have := abs_add_le (rnd x - x) (x - b / c')
    rwa [sub_add_sub_cancel] at this
  have e4 : u * |x| ≤ u * (2 * γ / (1 - γ) * (c / c') + c / c') := mul_le_mul_of_nonneg_left (by linarith) hu
  have e5 : (u + (1 + u) * (2 * γ / (1 - γ))) * (c / c') =
      u * (2 * γ / (1 - γ) * (c / c') + c / c') + 2 * γ / (1 - γ) * (c / c') := by ring
  rw [e5]
  linarith

/-- A weighted average, with weights that are not negative. -/
theorem averageIn_near (hu : 0 ≤ u) (hR : RelError rnd u) {α : Type} {φ ψ : α → ℚ} {l : List α}
    (hw : ∀ x ∈ l, 0 ≤ φ x) (hn : (1 + u) ^ (1 + l.length) - 1 < 1) (hpos : 0 < (l.map φ).sum) :
    |(averageIn (l.map fun x => (⟨ψ x⟩ : Fl rnd)) (l.map fun x => (⟨φ x⟩ : Fl rnd))).val -
        (l.map fun x => φ x * ψ x).sum / (l.map φ).sum| ≤
      (u + (1 + u) * (2 * ((1 + u) ^ (1 + l.length) - 1) / (1 - ((1 + u) ^ (1 + l.length) - 1)))) *
        ((l.map fun x => φ x * |ψ x|).sum / (l.map φ).sum) := by
  have e : List.zipWith (fun w x : Fl rnd => w * x) (l.map fun x => (⟨φ x⟩ : Fl rnd))
      (l.map fun x => (⟨ψ x⟩ : Fl rnd)) = l.map fun x => (⟨φ x⟩ : Fl rnd) * ⟨ψ x⟩ := by
    rw [List.zipWith_map, List.zipWith_self]
  have hx : ∀ x ∈ l, Near (rnd := rnd) u 0 ⟨φ x⟩ (φ x) (φ x) := fun x hx =>
    (show Exact (⟨φ x⟩ : Fl rnd) (φ x) (φ x) from ⟨rfl, (abs_of_nonneg (hw x hx)).symm⟩).near hu 0
  have h1 := sumIn_near (rnd := rnd) (u := u) (m := 1) hu hR
    (φ := fun x => (⟨φ x⟩ : Fl rnd) * ⟨ψ x⟩) (ψ := fun x => φ x * ψ x) (χ := fun x => φ x * |ψ x|) l
    fun x hm => by
      have k2 := (show Exact (⟨ψ x⟩ : Fl rnd) (ψ x) |ψ x| from ⟨rfl, rfl⟩).near hu 0
      exact ((hx x hm).mul hu hR k2).mono hu (by omega)
  have h2 := sumIn_near (rnd := rnd) (u := u) (m := 0) hu hR
    (φ := fun x => (⟨φ x⟩ : Fl rnd)) (ψ := φ) (χ := φ) l hx
  rw [averageIn, e]
  exact near_weighted hu hR h1 (h2.mono hu (by omega)) hn hpos

end Verif.Center
