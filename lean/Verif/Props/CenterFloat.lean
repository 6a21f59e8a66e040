import Verif.Lemmas.CenterFloat
import Verif.Props.Rounding

/-!
# Centers in `double` (C101)

The functions for centers with all operations rounded to 53 significant bits. The functions of the standard library
(`T`) are arbitrary.
-/

set_option linter.unusedSectionVars false

namespace Verif.Props

open Verif Outcome Spec Ens Center

variable {n : Nat}

/-- Whole numbers, as positions in `double`. -/
def dbl (p : Fin n → ℤ) : Fin n → Fl rnd64 := fun j => ⟨(p j : ℚ)⟩

theorem nat_exact {k : ℕ} (h : k ≤ 2 ^ 53) : ((k : ℕ) : Fl rnd64) = ⟨(k : ℚ)⟩ := by
  ext
  change rnd64 (k : ℚ) = k
  have := rnd64_exact (k : ℤ) (by rw [abs_of_nonneg (by positivity)]; exact_mod_cast h)
  exact_mod_cast this

theorem int_exact {k : ℤ} (h : |k| ≤ 2 ^ 53) : ((k : ℤ) : Fl rnd64) = ⟨(k : ℚ)⟩ := by
  ext
  exact rnd64_exact k h

theorem meanIn_ints {l : List ℤ} (h : (l.map fun k => |k|).sum ≤ 2 ^ 53) (hl : l.length ≤ 2 ^ 53) :
    (meanIn (l.map fun k : ℤ => (⟨(k : ℚ)⟩ : Fl rnd64))).val = rnd64 ((l.sum : ℤ) / (l.length : ℚ)) := by
  rw [meanIn, sumIn_ints rnd64_exact h, List.length_map, nat_exact hl]
  rfl

/-- **C101** Without periodicity the center of positions that are whole numbers is the mean position, rounded once: the
error is at most half a unit in the last place, however many positions there are. -/
theorem C101_center (T : Fin n → Trig (Fl rnd64)) (shape : Fin n → Fl rnd64) {positions : List (Fin n → ℤ)}
    (hne : positions ≠ []) (hl : positions.length ≤ 2 ^ 53) (j : Fin n)
    (hb : (positions.map fun p => |p j|).sum ≤ 2 ^ 53) :
    (centerIn T shape (positions.map dbl) false j).val =
      rnd64 ((positions.map fun p => p j).sum / (positions.length : ℚ)) := by
  have h0 : ¬ (positions.map (dbl (n := n))).length * n = 0 := by
    rw [List.length_map]
    have := List.length_pos_iff.2 hne
    have := j.pos
    positivity
  unfold centerIn
  rw [if_neg h0]
  simp only [Bool.not_false, if_true]
  have e : (positions.map dbl).map (fun p : Fin n → Fl rnd64 => p j) =
      (positions.map fun p => p j).map fun k : ℤ => (⟨(k : ℚ)⟩ : Fl rnd64) := by
    simp [dbl, Function.comp_def]
  rw [e, meanIn_ints (by simpa [Function.comp_def] using hb) (by simpa using hl), List.length_map]

/-- **C101** The same for the center of mass, with weights that are whole numbers. -/
theorem C101_center_of_mass (T : Fin n → Trig (Fl rnd64)) (shape : Fin n → Fl rnd64)
    {masses : List (ℤ × (Fin n → ℤ))} (hne : masses ≠ []) (j : Fin n)
    (hb : (masses.map fun m => |m.1 * m.2 j|).sum ≤ 2 ^ 53)
    (hw : (masses.map fun m => |m.1|).sum ≤ 2 ^ 53) :
    (centerOfMassIn T shape (masses.map fun m => dbl m.2) (masses.map fun m => ⟨(m.1 : ℚ)⟩) false j).val =
      rnd64 ((masses.map fun m => m.1 * m.2 j).sum / (masses.map fun m => m.1).sum) := by
  have h0 : ¬ (masses.map fun m => dbl (n := n) m.2).length * n = 0 := by
    rw [List.length_map]
    have := List.length_pos_iff.2 hne
    have := j.pos
    positivity
  have hb1 : ∀ m ∈ masses, |m.1 * m.2 j| ≤ 2 ^ 53 := fun m hm =>
    (List.single_le_sum (fun x hx => by
      obtain ⟨y, -, rfl⟩ := List.mem_map.1 hx
      exact abs_nonneg _) _ (List.mem_map.2 ⟨m, hm, rfl⟩)).trans hb
  unfold centerOfMassIn
  rw [if_neg h0]
  simp only [Bool.not_false, if_true]
  have e : List.zipWith (fun w x : Fl rnd64 => w * x) (masses.map fun m => (⟨(m.1 : ℚ)⟩ : Fl rnd64))
      ((masses.map fun m => dbl m.2).map fun p => p j) =
      (masses.map fun m => m.1 * m.2 j).map fun k : ℤ => (⟨(k : ℚ)⟩ : Fl rnd64) := by
    rw [List.map_map, List.map_map, List.zipWith_map, List.zipWith_self]
    refine List.map_congr_left fun m hm => ?_
    ext
    change rnd64 ((m.1 : ℚ) * (m.2 j : ℤ)) = ((m.1 * m.2 j : ℤ) : ℚ)
    have := rnd64_exact (m.1 * m.2 j) (hb1 m hm)
    push_cast at this ⊢
    exact this
  have e' : masses.map (fun m => (⟨(m.1 : ℚ)⟩ : Fl rnd64)) =
      (masses.map fun m => m.1).map fun k : ℤ => (⟨(k : ℚ)⟩ : Fl rnd64) := by
    simp [Function.comp_def]
  rw [averageIn, e, e', sumIn_ints rnd64_exact (by simpa [Function.comp_def] using hb),
    sumIn_ints rnd64_exact (by simpa [Function.comp_def] using hw)]
  rfl

/-- **C101** Positions that are any numbers: the error is at most the number of positions times `2 ^ -52`, times the mean
absolute coordinate. -/
theorem C101_error (T : Fin n → Trig (Fl rnd64)) (shape : Fin n → Fl rnd64) {positions : List (Fin n → ℚ)}
    (hne : positions ≠ []) (hl : positions.length + 1 ≤ 2 ^ 52) (j : Fin n) :
    |(centerIn T shape (positions.map fun p j => ⟨p j⟩) false j).val -
        (positions.map fun p => p j).sum / positions.length| ≤
      (positions.length + 1 : ℕ) / 2 ^ 52 * ((positions.map fun p => |p j|).sum / positions.length) := by
  have hpos := List.length_pos_iff.2 hne
  have h0 : ¬ (positions.map fun (p : Fin n → ℚ) j => (⟨p j⟩ : Fl rnd64)).length * n = 0 := by
    rw [List.length_map]
    have := j.pos
    positivity
  have hp : (0 : ℚ) < positions.length := by exact_mod_cast hpos
  unfold centerIn
  rw [if_neg h0]
  simp only [Bool.not_false, if_true, List.map_map, Function.comp_def]
  have h1 := sumIn_near (rnd := rnd64) (u := 1 / 2 ^ 53) (m := 0) u_nonneg rnd64_rel
    (φ := fun p : Fin n → ℚ => (⟨p j⟩ : Fl rnd64)) (ψ := fun p => p j) (χ := fun p => |p j|) positions
    fun p _ => (show Exact (⟨p j⟩ : Fl rnd64) (p j) |p j| from ⟨rfl, rfl⟩).near u_nonneg 0
  rw [zero_add] at h1
  refine near64 (k := positions.length + 1) hl ?_
  rw [meanIn, List.length_map, nat_exact (by omega)]
  refine near_round u_nonneg rnd64_rel ?_ ?_
  · rw [abs_div, abs_of_pos hp]
    exact div_le_div_of_nonneg_right h1.1 hp.le
  · rw [← sub_div, abs_div, abs_of_pos hp, ← mul_div_assoc]
    exact div_le_div_of_nonneg_right h1.2 hp.le

/-- **C101** The center of mass with any weights that are not negative. -/
theorem C101_mass_error (T : Fin n → Trig (Fl rnd64)) (shape : Fin n → Fl rnd64) {masses : List (ℚ × (Fin n → ℚ))}
    (hw : ∀ m ∈ masses, 0 ≤ m.1) (hpos : 0 < (masses.map fun m => m.1).sum) (hl : masses.length + 2 ≤ 2 ^ 50)
    (j : Fin n) :
    |(centerOfMassIn T shape (masses.map fun m j => ⟨m.2 j⟩) (masses.map fun m => ⟨m.1⟩) false j).val -
        (masses.map fun m => m.1 * m.2 j).sum / (masses.map fun m => m.1).sum| ≤
      (masses.length + 2 : ℕ) / 2 ^ 50 *
        ((masses.map fun m => m.1 * |m.2 j|).sum / (masses.map fun m => m.1).sum) := by
  have hne : masses ≠ [] := by
    rintro rfl
    simp at hpos
  have h0 : ¬ (masses.map fun (m : ℚ × (Fin n → ℚ)) j => (⟨m.2 j⟩ : Fl rnd64)).length * n = 0 := by
    rw [List.length_map]
    have := List.length_pos_iff.2 hne
    have := j.pos
    positivity
  unfold centerOfMassIn
  rw [if_neg h0]
  simp only [Bool.not_false, if_true, List.map_map, Function.comp_def]
  have hγ : (1 + 1 / 2 ^ 53 : ℚ) ^ (1 + masses.length) - 1 < 1 := by
    refine lt_of_le_of_lt (gamma64 (by omega)) ?_
    rw [div_lt_one (by norm_num)]
    have : 1 + masses.length < 2 ^ 52 := by omega
    exact_mod_cast this
  have hc : 0 ≤ (masses.map fun m => m.1 * |m.2 j|).sum := List.sum_nonneg fun x hx => by
    obtain ⟨m, hm, rfl⟩ := List.mem_map.1 hx
    exact mul_nonneg (hw m hm) (abs_nonneg _)
  have h := averageIn_near (rnd := rnd64) (u := 1 / 2 ^ 53) (l := masses) u_nonneg rnd64_rel (φ := fun m => m.1)
    (ψ := fun m => m.2 j) hw hγ hpos
  have hq := weighted64 (n := 1 + masses.length) (by omega)
  rw [show 1 + masses.length + 1 = masses.length + 2 by omega] at hq
  exact h.trans (mul_le_mul_of_nonneg_right hq (div_nonneg hc hpos.le))

/-! ### Rounding keeps the order -/

theorem roundEven_neg (x : ℚ) : roundEven (-x) = -roundEven x := by
  have h1 := Int.floor_le x
  have h2 := Int.lt_floor_add_one x
  rcases h1.eq_or_lt with e | h1
  · have e1 : roundEven x = ⌊x⌋ := by
      conv_lhs => rw [← e]
      exact roundEven_int _
    have e2 : roundEven (-x) = -⌊x⌋ := by
      conv_lhs => rw [← e]
      have := roundEven_int (-⌊x⌋)
      push_cast at this
      exact this
    rw [e1, e2]
  · have hf : ⌊-x⌋ = -⌊x⌋ - 1 := by
      rw [Int.floor_eq_iff]
      push_cast
      constructor <;> linarith
    unfold roundEven
    rw [hf]
    push_cast
    by_cases c1 : x - ⌊x⌋ < 1 / 2
    · rw [if_neg (by linarith), if_pos (by linarith), if_pos c1]
      ring
    · by_cases c2 : 1 / 2 < x - ⌊x⌋
      · rw [if_pos (by linarith), if_neg c1, if_pos c2]
        ring
      · rw [if_neg (by linarith), if_neg (by linarith), if_neg c1, if_neg c2]
        split_ifs <;> omega

theorem rnd64_neg (x : ℚ) : rnd64 (-x) = -rnd64 x := by
  unfold rnd64
  by_cases h : x = 0
  · simp [h]
  · rw [if_neg (by simpa using h), if_neg h]
    have : ulp (-x) = ulp x := by simp [ulp]
    rw [this, neg_div, roundEven_neg]
    push_cast
    ring

theorem rnd64_monotone {x y : ℚ} (h : x ≤ y) : rnd64 x ≤ rnd64 y := by
  rcases le_or_gt 0 x with hx | hx
  · exact rnd64_mono hx h
  · rcases le_or_gt 0 y with hy | hy
    · have := rnd64_nonneg (x := -x) (by linarith)
      rw [rnd64_neg] at this
      exact (by linarith : rnd64 x ≤ 0).trans (rnd64_nonneg hy)
    · have := rnd64_mono (x := -y) (y := -x) (by linarith) (by linarith)
      rw [rnd64_neg, rnd64_neg] at this
      linarith

/-- **C101** The center lies among the positions, also after rounding. -/
theorem C101_between (T : Fin n → Trig (Fl rnd64)) (shape : Fin n → Fl rnd64) {positions : List (Fin n → ℤ)}
    (hne : positions ≠ []) (hl : positions.length ≤ 2 ^ 53) (j : Fin n)
    (hb : (positions.map fun p => |p j|).sum ≤ 2 ^ 53) {a b : ℤ} (ha : |a| ≤ 2 ^ 53) (hb' : |b| ≤ 2 ^ 53)
    (hp : ∀ p ∈ positions, a ≤ p j ∧ p j ≤ b) :
    a ≤ (centerIn T shape (positions.map dbl) false j).val ∧
      (centerIn T shape (positions.map dbl) false j).val ≤ b := by
  rw [C101_center T shape hne hl j hb]
  have hpos : (0 : ℚ) < positions.length := by exact_mod_cast List.length_pos_iff.2 hne
  have h1 : positions.length * a ≤ (positions.map fun p => p j).sum := by
    have := List.card_nsmul_le_sum (positions.map fun p => p j) a fun x hx => by
      obtain ⟨p, hpm, rfl⟩ := List.mem_map.1 hx
      exact (hp p hpm).1
    simpa using this
  have h2 : (positions.map fun p => p j).sum ≤ positions.length * b := by
    have := List.sum_le_card_nsmul (positions.map fun p => p j) b fun x hx => by
      obtain ⟨p, hpm, rfl⟩ := List.mem_map.1 hx
      exact (hp p hpm).2
    simpa using this
  constructor
  · have := rnd64_monotone (x := a) (y := (positions.map fun p => p j).sum / (positions.length : ℚ)) (by
      rw [le_div_iff₀ hpos, mul_comm]
      exact_mod_cast h1)
    rwa [rnd64_int ha] at this
  · have := rnd64_monotone (y := b) (x := (positions.map fun p => p j).sum / (positions.length : ℚ)) (by
      rw [div_le_iff₀ hpos, mul_comm]
      exact_mod_cast h2)
    rwa [rnd64_int hb'] at this

/-! ### Centers of labels -/

/-- A coordinate of a pixel. -/
theorem getD_inbox {shape : List Nat} {x : List Int} (hx : InBox shape x) {j : Nat} (hj : j < shape.length) :
    0 ≤ x.getD j 0 ∧ x.getD j 0 < (shape.getD j 0 : Nat) := by
  have h := List.Forall₂.get hx hj (by rw [← hx.length_eq]; exact hj)
  have hj' : j < x.length := by rw [← hx.length_eq]; exact hj
  rw [List.getD_eq_getElem?_getD, List.getD_eq_getElem?_getD, List.getElem?_eq_getElem hj,
    List.getElem?_eq_getElem hj']
  exact h

theorem length_le_prod {labels : Nd Int} {name : Int} {l : List (List Int)} (hl : Enumerates labels name l) :
    l.length ≤ labels.shape.prod := by
  rw [← pixels_length]
  refine (List.subperm_of_subset hl.1 fun x hx => ?_).length_le
  exact mem_pixels.2 ((hl.2 x).1 hx).1

/-- **C101** `labels_centers` without periodicity: every row is the mean position of the pixels of the label, rounded
once, and lies in the image. Zeros for a label that does not occur. -/
theorem C101_labels (dbg : Bool) (T : Nat → Fin n → Trig (Fl rnd64)) (labels : Nd Int)
    (hn : labels.shape.length = n) (h0 : 0 < n) (names : List Int)
    (hbig : ∀ j < n, labels.shape.prod * labels.shape.getD j 0 ≤ 2 ^ 53) :
    ∃ rows, labelsCentersIn dbg T labels hn names false = ok rows ∧ rows.length = names.length ∧
      ∀ i (hi : i < names.length) (l : List (List Int)), Enumerates labels names[i] l →
        ∃ row, rows[i]? = some row ∧ ∀ j : Fin n,
          (row j).val = rnd64 ((l.map fun x => x.getD j 0).sum / (l.length : ℚ)) ∧
          (l ≠ [] → 0 ≤ (row j).val ∧ (row j).val ≤ labels.shape.getD j 0 - 1) := by
  obtain ⟨rows, h1, h2, h3⟩ := labelsCentersIn_ok dbg T labels hn h0 names false
  refine ⟨rows, h1, h2, fun i hi l hl => ⟨_, h3 i hi, fun j => ?_⟩⟩
  have hp := argwhere_perm hl
  have hlen := length_le_prod hl
  have hjn : (j : Nat) < labels.shape.length := by rw [hn]; exact j.isLt
  have hb := hbig j j.isLt
  rcases l with _ | ⟨x0, l0⟩
  · rw [List.perm_nil.1 hp]
    have e : rnd64 0 = 0 := by simp [rnd64]
    refine ⟨?_, fun h => absurd rfl h⟩
    simp only [List.map_nil, List.sum_nil, List.length_nil]
    norm_num
    rw [e]
    simp [centerIn]
    rfl
  generalize hlist : x0 :: l0 = l at *
  have hne : l ≠ [] := by rw [← hlist]; simp
  set A := argwhere labels names[i] with hA
  have hAne : A ≠ [] := fun e => hne (List.perm_nil.1 (e ▸ hp).symm)
  have hAl : A.length = l.length := hp.length_eq
  have hin : ∀ x ∈ A, InBox labels.shape x := fun x hx => argwhere_inbox hx
  have hprod : 0 < labels.shape.prod := lt_of_lt_of_le (List.length_pos_iff.2 hne) hlen
  have hcoord : ∀ x ∈ A, ∀ j : Fin n, 0 ≤ x.getD j 0 ∧ x.getD j 0 < (labels.shape.getD j 0 : Nat) := fun x hx j =>
    getD_inbox (hin x hx) (by rw [hn]; exact j.isLt)
  have hsmall : ∀ j : Fin n, labels.shape.getD j 0 ≤ 2 ^ 53 := fun j =>
    (Nat.le_mul_of_pos_left _ hprod).trans (hbig j j.isLt)
  have e : A.map (coordsIn (K := Fl rnd64) n) = (A.map fun x (j : Fin n) => x.getD j 0).map dbl := by
    rw [List.map_map]
    refine List.map_congr_left fun x hx => ?_
    funext j
    refine int_exact ?_
    have := hcoord x hx j
    have := hsmall j
    rw [abs_le]
    constructor <;> omega
  have hbound : ((A.map fun x (j : Fin n) => x.getD j 0).map fun p => |p j|).sum ≤ 2 ^ 53 := by
    rw [List.map_map]
    have := List.sum_le_card_nsmul (A.map ((fun p : Fin n → ℤ => |p j|) ∘ fun x (j : Fin n) => x.getD j 0))
      (labels.shape.getD j 0 : Nat) fun y hy => by
        obtain ⟨x, hx, rfl⟩ := List.mem_map.1 hy
        have := hcoord x hx j
        simp only [Function.comp]
        rw [abs_of_nonneg this.1]
        exact this.2.le
    refine this.trans ?_
    rw [List.length_map, hAl, nsmul_eq_mul]
    have : l.length * labels.shape.getD j 0 ≤ 2 ^ 53 := (Nat.mul_le_mul_right _ hlen).trans hb
    exact_mod_cast this
  have hl53 : (A.map fun x (j : Fin n) => x.getD j 0).length ≤ 2 ^ 53 := by
    rw [List.length_map, hAl]
    have h1 : 0 < labels.shape.getD j 0 := by
      obtain ⟨x, hx⟩ := List.exists_mem_of_ne_nil A hAne
      have := hcoord x hx j
      omega
    exact hlen.trans ((Nat.le_mul_of_pos_right _ h1).trans hb)
  have hmne : (A.map fun x (j : Fin n) => x.getD j 0) ≠ [] := by simpa using hAne
  rw [e]
  refine ⟨?_, fun _ => ?_⟩
  · rw [C101_center _ _ hmne hl53 j hbound, List.length_map, hAl, List.map_map]
    have : (A.map ((fun p : Fin n → ℤ => p j) ∘ fun x (j : Fin n) => x.getD j 0)).sum =
        (l.map fun x => x.getD j 0).sum := (hp.map _).sum_eq
    rw [this]
  · have := C101_between (T i) (boxIn n labels.shape) hmne hl53 j hbound (a := 0)
      (b := (labels.shape.getD j 0 : Nat) - 1) (by norm_num) (by
        have := hsmall j
        have h1 : 0 < labels.shape.getD j 0 := by
          obtain ⟨x, hx⟩ := List.exists_mem_of_ne_nil A hAne
          have := hcoord x hx j
          omega
        rw [abs_of_nonneg (by omega)]
        omega) (fun p hp => by
        obtain ⟨x, hx, rfl⟩ := List.mem_map.1 hp
        have := hcoord x hx j
        dsimp only
        omega)
    push_cast at this
    exact this

theorem sum_le_pixels {labels : Nd Int} {name : Int} {l : List (List Int)} (hl : Enumerates labels name l)
    {φ : List Int → ℤ} (h : ∀ x, 0 ≤ φ x) : (l.map φ).sum ≤ ((pixels labels.shape).map φ).sum := by
  obtain ⟨l', hp, hs⟩ := List.subperm_of_subset hl.1 (l₂ := pixels labels.shape) fun x hx =>
    mem_pixels.2 ((hl.2 x).1 hx).1
  rw [← (hp.map φ).sum_eq]
  exact (hs.map φ).sum_le_sum fun y hy => by
    obtain ⟨x, -, rfl⟩ := List.mem_map.1 hy
    exact h x

/-- **C101** `labels_centers_of_mass` without periodicity, with weights that are whole numbers: every row is the weighted
mean position of the pixels of the label, rounded once. -/
theorem C101_labels_mass (dbg : Bool) (T : Nat → Fin n → Trig (Fl rnd64)) (labels : Nd Int)
    (hn : labels.shape.length = n) (h0 : 0 < n) (names : List Int) {weights : Nd (Fl rnd64)}
    (hs : weights.shape = labels.shape) {w : List Int → ℤ} (hw : ∀ x, InBox labels.shape x → val weights x = ⟨(w x : ℚ)⟩)
    (hbig : ∀ j < n, ((pixels labels.shape).map fun x => |w x|).sum * (labels.shape.getD j 0 : Nat) ≤ 2 ^ 53)
    (hsize : ∀ j < n, labels.shape.getD j 0 ≤ 2 ^ 53) :
    ∃ rows, labelsCentersOfMassIn dbg T labels hn weights names false = ok rows ∧ rows.length = names.length ∧
      ∀ i (hi : i < names.length) (l : List (List Int)), Enumerates labels names[i] l →
        ∃ row, rows[i]? = some row ∧ ∀ j : Fin n,
          (row j).val = rnd64 ((l.map fun x => w x * x.getD j 0).sum / (l.map w).sum) := by
  obtain ⟨rows, h1, h2, h3⟩ := labelsCentersOfMassIn_ok dbg T labels hn h0 weights hs names false
  refine ⟨rows, h1, h2, fun i hi l hl => ⟨_, h3 i hi, fun j => ?_⟩⟩
  have hp := argwhere_perm hl
  have hb := hbig j j.isLt
  rcases l with _ | ⟨x0, l0⟩
  · rw [List.perm_nil.1 hp]
    have e : rnd64 0 = 0 := by simp [rnd64]
    simp only [List.map_nil, List.sum_nil]
    norm_num
    rw [e]
    simp [centerOfMassIn]
    rfl
  generalize hlist : x0 :: l0 = l at *
  have hne : l ≠ [] := by rw [← hlist]; simp
  set A := argwhere labels names[i] with hA
  have hAne : A ≠ [] := fun e => hne (List.perm_nil.1 (e ▸ hp).symm)
  have hin : ∀ x ∈ A, InBox labels.shape x := fun x hx => argwhere_inbox hx
  have hcoord : ∀ x ∈ A, ∀ j : Fin n, 0 ≤ x.getD j 0 ∧ x.getD j 0 < (labels.shape.getD j 0 : Nat) := fun x hx j =>
    getD_inbox (hin x hx) (by rw [hn]; exact j.isLt)
  have e : A.map (coordsIn (K := Fl rnd64) n) =
      (A.map fun x => (w x, fun j : Fin n => x.getD j 0)).map fun m => dbl m.2 := by
    rw [List.map_map]
    refine List.map_congr_left fun x hx => ?_
    funext j
    refine int_exact ?_
    have := hcoord x hx j
    have := hsize j j.isLt
    rw [abs_le]
    constructor <;> omega
  have e' : A.map (val weights) =
      (A.map fun x => (w x, fun j : Fin n => x.getD j 0)).map fun m => (⟨(m.1 : ℚ)⟩ : Fl rnd64) := by
    rw [List.map_map]
    exact List.map_congr_left fun x hx => hw x (hin x hx)
  have hsum : ((A.map fun x => (w x, fun j : Fin n => x.getD j 0)).map fun m => |m.1|).sum ≤
      ((pixels labels.shape).map fun x => |w x|).sum := by
    rw [List.map_map, (hp.map _).sum_eq]
    exact sum_le_pixels hl fun x => abs_nonneg (w x)
  have hpos1 : (1 : ℤ) ≤ (labels.shape.getD j 0 : Nat) := by
    obtain ⟨x, hx⟩ := List.exists_mem_of_ne_nil A hAne
    have := hcoord x hx j
    omega
  have hnn : 0 ≤ ((pixels labels.shape).map fun x => |w x|).sum := List.sum_nonneg fun y hy => by
    obtain ⟨x, -, rfl⟩ := List.mem_map.1 hy
    exact abs_nonneg _
  have hw53 : ((pixels labels.shape).map fun x => |w x|).sum ≤ 2 ^ 53 :=
    (le_mul_of_one_le_right hnn hpos1).trans hb
  have hbound : ((A.map fun x => (w x, fun j : Fin n => x.getD j 0)).map fun m => |m.1 * m.2 j|).sum ≤ 2 ^ 53 := by
    refine le_trans ?_ ((mul_le_mul_of_nonneg_right hsum (by positivity)).trans hb)
    rw [List.map_map, List.map_map, ← List.sum_map_mul_right]
    refine List.sum_le_sum fun x hx => ?_
    have := hcoord x hx j
    simp only [Function.comp]
    rw [abs_mul, abs_of_nonneg this.1]
    exact mul_le_mul_of_nonneg_left this.2.le (abs_nonneg _)
  have hmne : (A.map fun x => (w x, fun j : Fin n => x.getD j 0)) ≠ [] := by simpa using hAne
  rw [e, e', C101_center_of_mass _ _ hmne j hbound (hsum.trans hw53), List.map_map, List.map_map]
  have s1 : (A.map ((fun m : ℤ × (Fin n → ℤ) => m.1 * m.2 j) ∘ fun x => (w x, fun j : Fin n => x.getD j 0))).sum =
      (l.map fun x => w x * x.getD j 0).sum := (hp.map _).sum_eq
  have s2 : (A.map ((fun m : ℤ × (Fin n → ℤ) => m.1) ∘ fun x => (w x, fun j : Fin n => x.getD j 0))).sum =
      (l.map w).sum := (hp.map _).sum_eq
  rw [s1, s2]

/-! ### Periodic -/

/-- **C101** With periodicity the center lies in the image, up to two roundings: whatever `std::sin` and `std::cos` return,
if `std::atan2` returns angles between minus and plus pi. -/
theorem C101_periodic (T : Fin n → Trig (Fl rnd64)) (shape : Fin n → Fl rnd64) (positions : List (Fin n → Fl rnd64))
    (j : Fin n) (hs : 0 ≤ (shape j).val) (hpi : 0 < (T j).pi.val) (hpi' : rnd64 (T j).pi.val = (T j).pi.val)
    (hat : ∀ y x, |((T j).atan2 y x).val| ≤ (T j).pi.val) :
    0 ≤ (centerIn T shape positions true j).val ∧
      (centerIn T shape positions true j).val ≤ (shape j).val * (1 + 1 / 2 ^ 51) := by
  unfold centerIn
  split_ifs with h0 h1
  · exact ⟨le_refl (0 : ℚ), mul_nonneg hs (by norm_num)⟩
  · simp at h1
  · dsimp only
    generalize (T j).atan2 _ _ = t, hat _ _ = ht
    generalize (T j).pi = π at hpi hpi' ht
    generalize shape j = s at hs
    have e2 : rnd64 (2 * π.val) = 2 * π.val := by
      have := rnd64_half (2 * π.val)
      rw [mul_div_cancel_left₀ _ (two_ne_zero), hpi'] at this
      linarith
    have en : (((2 : ℕ) : Fl rnd64) * π).val = 2 * π.val := by
      rw [nat_exact (by norm_num)]
      exact e2
    have ha := abs_le.1 ht
    have k1 : 0 ≤ (t + π).val := rnd64_nonneg (by linarith)
    have k2 : (t + π).val ≤ 2 * π.val := by
      rw [← e2]
      exact rnd64_monotone (by linarith)
    generalize t + π = θ at k1 k2
    have k3 : 0 ≤ (s * θ).val := rnd64_nonneg (mul_nonneg hs k1)
    have k4 : (s * θ).val ≤ s.val * (2 * π.val) * (1 + 1 / 2 ^ 53) := by
      have m : (s * θ).val ≤ rnd64 (s.val * (2 * π.val)) :=
        rnd64_monotone (mul_le_mul_of_nonneg_left k2 hs)
      have er := (abs_le.1 (rnd64_error (s.val * (2 * π.val)))).2
      rw [abs_of_nonneg (mul_nonneg hs (by linarith))] at er
      linarith
    change 0 ≤ rnd64 ((s * θ).val / _) ∧ rnd64 ((s * θ).val / _) ≤ _
    rw [en]
    generalize (s * θ).val = y at k3 k4
    have hq : y / (2 * π.val) ≤ s.val * (1 + 1 / 2 ^ 53) := by
      rw [div_le_iff₀ (by linarith)]
      linarith
    have hq0 : 0 ≤ y / (2 * π.val) := div_nonneg k3 (by linarith)
    refine ⟨rnd64_nonneg hq0, ?_⟩
    have er := (abs_le.1 (rnd64_error (y / (2 * π.val)))).2
    rw [abs_of_nonneg hq0] at er
    have : rnd64 (y / (2 * π.val)) ≤ s.val * (1 + 1 / 2 ^ 53) * (1 + 1 / 2 ^ 53) := by linarith
    refine this.trans ?_
    rw [mul_assoc]
    exact mul_le_mul_of_nonneg_left (by norm_num) hs

/-- **C101** With real numbers this is the program of C49 to C52. -/
theorem C101_real (negative : Nat → Fin n → Bool) (labels : Nd Int) (hn : labels.shape.length = n) (weights : Nd ℝ)
    (names : List Int) (shape : Fin n → ℝ) (positions : List (Fin n → ℝ)) (w : List ℝ) (periodic dbg : Bool) :
    centerIn (fun j => realTrig (negative 0 j)) shape positions periodic = center (negative 0) shape positions periodic ∧
    centerOfMassIn (fun j => realTrig (negative 0 j)) shape positions w periodic =
      centerOfMass (negative 0) shape positions w periodic ∧
    labelsCentersIn dbg (fun i j => realTrig (negative i j)) labels hn names periodic =
      labelsCenters dbg negative labels hn names periodic ∧
    labelsCentersOfMassIn dbg (fun i j => realTrig (negative i j)) labels hn weights names periodic =
      labelsCentersOfMass dbg negative labels hn weights names periodic :=
  ⟨centerIn_real _ _ _ _, centerOfMassIn_real _ _ _ _ _, labelsCentersIn_real _ _ _ _ _ _,
    labelsCentersOfMassIn_real _ _ _ _ _ _ _⟩

/-! ### The hypotheses are met -/

/-- Three positions in the plane. -/
def threePoints : List (Fin 2 → ℤ) := [![0, 1], ![3, -2], ![7, 5]]

example : threePoints ≠ [] ∧ threePoints.length ≤ 2 ^ 53 ∧ (threePoints.map fun p => |p 1|).sum ≤ 2 ^ 53 ∧
    (∀ p ∈ threePoints, -2 ≤ p 1 ∧ p 1 ≤ 5) := by decide

/-- The mean of 0, 3 and 7 is not a `double`. -/
example (T : Fin 2 → Trig (Fl rnd64)) (shape : Fin 2 → Fl rnd64) :
    (centerIn T shape (threePoints.map dbl) false 0).val = rnd64 (10 / 3) := by
  have h : (threePoints.map fun p => |p 0|).sum ≤ 2 ^ 53 := by decide
  rw [C101_center T shape (by decide) (by decide) 0 h]
  norm_num [threePoints]

example : rnd64 (10 / 3) ≠ 10 / 3 := by decide +kernel

/-- An image with two labels. -/
def twoLabels : Nd Int := Nd.ofList [2, 3] [1, 1, 0, 2, 1, 0]

example : twoLabels.shape.length = 2 ∧
    (∀ j < 2, twoLabels.shape.prod * twoLabels.shape.getD j 0 ≤ 2 ^ 53) ∧
    Enumerates twoLabels 1 [[0, 0], [0, 1], [1, 1]] := by
  refine ⟨rfl, by decide, by decide, fun x => ?_⟩
  constructor
  · intro hx
    simp only [List.mem_cons, List.not_mem_nil, or_false] at hx
    rcases hx with rfl | rfl | rfl <;> refine ⟨mem_pixels.1 (by decide), by decide⟩
  · rintro ⟨hx, hv⟩
    have : ∀ x ∈ pixels twoLabels.shape, val twoLabels x = 1 → x ∈ [[0, 0], [0, 1], [1, 1]] := by decide
    exact this x (mem_pixels.2 hx) hv

/-- Weights for `C101_center_of_mass` and `C101_mass_error`. -/
example : let m : List (ℤ × (Fin 2 → ℤ)) := [(2, ![0, 1]), (5, ![3, -2])]
    m ≠ [] ∧ (m.map fun a => |a.1 * a.2 1|).sum ≤ 2 ^ 53 ∧ (m.map fun a => |a.1|).sum ≤ 2 ^ 53 := by decide

/-- The number pi as a `double`. -/
def pi64 : ℚ := 884279719003555 / 281474976710656

example : 0 < pi64 ∧ rnd64 pi64 = pi64 := by decide +kernel

/-- What the functions of the standard library return near zero: `sin(x) = x`, `cos(x) = 1`, and `atan2` of a small
positive number and minus one is pi. -/
def trigNearZero : Trig (Fl rnd64) := ⟨⟨pi64⟩, fun _ => 1, fun x => x, fun _ _ => ⟨pi64⟩⟩

/-- **C101** The two roundings are needed: the center of one position just below zero, in a periodic box of size 13, is
above 13. -/
theorem C101_periodic_exceeds :
    13 < (centerIn (n := 1) (fun _ => trigNearZero) (fun _ => ⟨13⟩) [fun _ => ⟨-(1 / 2 ^ 57)⟩] true 0).val := by
  decide +kernel

end Verif.Props
