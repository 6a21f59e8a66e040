import Verif.Model.Dummy32
import Verif.Props.Dummy

/-!
# Overflow in `dummy_circles` (C110)

`dummyCircles32` is the function with the 32-bit integers of the code; `dummyCircles` the one of unbounded integers,
for which C53 and C54 hold.
-/

namespace Verif.Dummy

open Outcome Path

/-- The values of `int`. -/
def FitsInt (a : Int) : Prop := -2 ^ 31 ≤ a ∧ a < 2 ^ 31

instance (a : Int) : Decidable (FitsInt a) := by unfold FitsInt; infer_instance

theorem i32_ok {a : Int} (h : FitsInt a) : i32 a = ok a := by
  unfold FitsInt at h
  unfold i32
  rw [if_pos (by omega)]

theorem i32_ub {a : Int} (h : ¬ FitsInt a) : i32 a = ub := by
  unfold FitsInt at h
  unfold i32
  rw [if_neg (by omega)]

/-- Returns or is undefined. -/
def Plain {α : Type} (x : Outcome α) : Prop := x = ub ∨ ∃ a, x = ok a

theorem plain_ok {α : Type} (a : α) : Plain (ok a) := Or.inr ⟨a, rfl⟩

theorem plain_ub {α : Type} : Plain (ub : Outcome α) := Or.inl rfl

theorem plain_bind {α β : Type} {x : Outcome α} {f : α → Outcome β} (h : Plain x) (hf : ∀ a, Plain (f a)) :
    Plain (x.bind f) := by
  rcases h with rfl | ⟨a, rfl⟩
  · exact plain_ub
  · exact hf a

theorem plain_i32 (a : Int) : Plain (i32 a) := by
  unfold i32
  split
  · exact plain_ok _
  · exact plain_ub

theorem plain_forM {σ α : Type} {f : σ → α → Outcome σ} (hf : ∀ s x, Plain (f s x)) :
    ∀ (l : List α) (s : σ), Plain (forM l s f)
  | [], s => plain_ok s
  | x :: l, s => plain_bind (hf s x) fun s => plain_forM hf l s

/-- A loop with a step that is undefined. -/
theorem forM_ub {σ α : Type} {f : σ → α → Outcome σ} (hf : ∀ s x, Plain (f s x)) {y : α} (hy : ∀ s, f s y = ub) :
    ∀ {l : List α}, y ∈ l → ∀ s : σ, forM l s f = ub
  | x :: l, h, s => by
    rw [forM]
    rcases List.mem_cons.1 h with rfl | h
    · rw [hy]; rfl
    · rcases hf s x with e | ⟨a, e⟩
      · rw [e]; rfl
      · rw [e]
        exact forM_ub hf hy h a

theorem plain_write {α : Type} (a : Nd α) (x : List Int) (v : α) : Plain (a.write x v) := by
  unfold Nd.write
  split
  · exact plain_ok _
  · exact plain_ub

theorem plain_periodicIndex (shape : List Nat) (x : List Int) : Plain (periodicIndex shape x) := by
  unfold periodicIndex
  split
  · exact plain_ub
  · exact plain_ok _

theorem plain_stampPeriodic32 (root : Nat → Int) (out : Nd Int) (row col r di dj : Int) :
    Plain (stampPeriodic32 root out row col r di dj) := by
  unfold stampPeriodic32
  refine plain_bind (plain_i32 _) fun dr => ?_
  split
  · exact plain_bind (plain_i32 _) fun a => plain_bind (plain_i32 _) fun b =>
      plain_bind (plain_periodicIndex _ _) fun x => plain_write _ _ _
  · exact plain_ok _

theorem plain_stamp32 (root : Nat → Int) (out : Nd Int) (row col r di dj : Int) :
    Plain (stamp32 root out row col r di dj) := by
  unfold stamp32
  refine plain_bind (plain_i32 _) fun a => plain_bind (plain_i32 _) fun b => ?_
  split
  · refine plain_bind (plain_i32 _) fun dr => ?_
    split
    · exact plain_write _ _ _
    · exact plain_ok _
  · exact plain_ok _

theorem plain_range32 (r : Int) : Plain (range32 r) := by
  unfold range32
  refine plain_bind (plain_i32 _) fun _ => ?_
  split
  · exact plain_ok _
  · exact plain_bind (plain_i32 _) fun _ => plain_ok _

theorem plain_pixel32 (root : Nat → Int) (periodic : Bool) (c : Int × Int × Int) (out : Nd Int) (di dj : Int) :
    Plain (if periodic then stampPeriodic32 root out c.1 c.2.1 c.2.2 di dj
      else stamp32 root out c.1 c.2.1 c.2.2 di dj) := by
  split
  · exact plain_stampPeriodic32 _ _ _ _ _ _ _
  · exact plain_stamp32 _ _ _ _ _ _ _

theorem plain_circle32 (root : Nat → Int) (periodic : Bool) (c : Int × Int × Int) (out : Nd Int) :
    Plain (circle32 root periodic c out) :=
  plain_bind (plain_range32 _) fun _ => plain_forM (fun _ _ => plain_bind (plain_range32 _) fun _ =>
    plain_forM (fun _ _ => plain_pixel32 root periodic c _ _ _) _ _) _ _

theorem plain_circle (row col r : List Int) (i : Nat) : Plain (circle row col r i) := by
  unfold circle
  split
  · exact plain_ok _
  · exact plain_ub

theorem range32_ok {r : Int} (h0 : -2 ^ 30 < r) (h1 : r < 2 ^ 30) : range32 r = ok (range r) := by
  unfold range32
  rw [i32_ok (by unfold FitsInt; omega)]
  simp only [Outcome.bind]
  split
  · rw [show range r = [] by
      unfold range
      rw [show (2 * r + 1).toNat = 0 by omega]
      rfl]
  · rw [i32_ok (by unfold FitsInt; omega)]

/-- The rounded distance is at most twice the radius. -/
theorem distance_le {r di dj : Int} (hi : -r ≤ di ∧ di ≤ r) (hj : -r ≤ dj ∧ dj ≤ r) :
    0 ≤ distance (fun m => ceilSqrt m) di dj ∧ distance (fun m => ceilSqrt m) di dj ≤ 2 * r := by
  unfold distance
  dsimp only
  refine ⟨by omega, ?_⟩
  have h1 : di ^ 2 ≤ r ^ 2 := by nlinarith
  have h2 : dj ^ 2 ≤ r ^ 2 := by nlinarith
  set m := (di ^ 2 + dj ^ 2).toNat with hm
  have hle : (m : Int) ≤ 2 * r ^ 2 := by
    have : (0 : Int) ≤ di ^ 2 + dj ^ 2 := by positivity
    omega
  have hs : (Nat.sqrt m * Nat.sqrt m : Nat) ≤ m := Nat.sqrt_le m
  have hs' : ((Nat.sqrt m : Int)) * Nat.sqrt m ≤ 2 * r ^ 2 := by
    have : ((Nat.sqrt m * Nat.sqrt m : Nat) : Int) ≤ m := by exact_mod_cast hs
    push_cast at this
    omega
  have hr : 0 ≤ r := by omega
  unfold ceilSqrt
  by_cases h0 : r = 0
  · subst h0
    have : m = 0 := by
      have : (m : Int) ≤ 0 := by simpa using hle
      omega
    rw [this]
    simp
  · have hlt : (Nat.sqrt m : Int) < 2 * r := by
      by_contra hge
      have : 2 * r ≤ (Nat.sqrt m : Int) := by omega
      have h4 : (2 * r) * (2 * r) ≤ (Nat.sqrt m : Int) * Nat.sqrt m := mul_le_mul this this (by omega) (by omega)
      have h5 : 0 < r ^ 2 := by positivity
      nlinarith
    split <;> push_cast <;> omega

theorem distance_axis (d : Int) : distance (fun m => ceilSqrt m) d 0 = |d| ∧ distance (fun m => ceilSqrt m) 0 d = |d| := by
  have h : (ceilSqrt (d ^ 2).toNat : Int) = |d| := by
    have e : (d ^ 2).toNat = d.natAbs * d.natAbs := by
      have : ((d.natAbs * d.natAbs : Nat) : Int) = d ^ 2 := by
        rw [Nat.cast_mul, Int.natAbs_mul_self', sq]
      omega
    rw [e]
    unfold ceilSqrt
    rw [Nat.sqrt_eq, if_pos rfl]
    exact Int.natCast_natAbs d
  unfold distance
  constructor <;> simpa using h

end Verif.Dummy

namespace Verif.Props

open Verif Outcome Spec Dummy Verif.Path

/-- The integers that are evaluated for one circle fit: in the non-periodic case the square around the disc, also
where it is outside of the image; in the periodic case the disc itself. -/
def CircleFits (periodic : Bool) (row col r : Int) : Prop :=
  if periodic then 1 ≤ r → FitsInt (row - (r - 1)) ∧ FitsInt (row + (r - 1)) ∧ FitsInt (col - (r - 1)) ∧ FitsInt (col + (r - 1))
  else 0 ≤ r → FitsInt (row - r) ∧ FitsInt (row + r) ∧ FitsInt (col - r) ∧ FitsInt (col + r)

/-- A circle that fits. -/
theorem circle32_ok {periodic : Bool} {row col r : Int} (h0 : -2 ^ 30 < r) (h1 : r < 2 ^ 30)
    (hf : CircleFits periodic row col r) (out : Nd Int) :
    circle32 (fun m => ceilSqrt m) periodic (row, col, r) out =
      forM (range r) out fun out di => forM (range r) out fun out dj =>
        if periodic then stampPeriodic (fun m => ceilSqrt m) out row col r di dj
        else stamp (fun m => ceilSqrt m) out row col r di dj := by
  unfold circle32
  simp only [range32_ok h0 h1, Outcome.bind]
  refine forM_congr_mem _ _ fun di hdi out => forM_congr_mem _ _ fun dj hdj out => ?_
  rw [mem_range] at hdi hdj
  obtain ⟨hd0, hd1⟩ := distance_le hdi hdj
  have hd : FitsInt (distance (fun m => ceilSqrt m) di dj) := by unfold FitsInt; omega
  unfold CircleFits at hf
  cases periodic with
  | true =>
    simp only [if_true] at hf ⊢
    unfold stampPeriodic32 stampPeriodic
    rw [i32_ok hd]
    simp only [Outcome.bind]
    split
    · rename_i hlt
      obtain ⟨f1, f2, f3, f4⟩ := hf (by omega)
      obtain ⟨-, hsq⟩ := inDisc_iff.1 ((distance_lt (r := r) (di := di) (dj := dj)).1 hlt)
      have b1 : |di| ≤ r - 1 := abs_le_of_sq_le_sq (by nlinarith) (by omega)
      have b2 : |dj| ≤ r - 1 := abs_le_of_sq_le_sq (by nlinarith) (by omega)
      rw [abs_le] at b1 b2
      unfold FitsInt at f1 f2 f3 f4
      rw [i32_ok (by unfold FitsInt; omega), i32_ok (by unfold FitsInt; omega)]
      rfl
    · rfl
  | false =>
    simp only [Bool.false_eq_true, if_false] at hf ⊢
    obtain ⟨f1, f2, f3, f4⟩ := hf (by omega)
    unfold FitsInt at f1 f2 f3 f4
    unfold stamp32 stamp
    rw [i32_ok (by unfold FitsInt; omega), i32_ok (by unfold FitsInt; omega), i32_ok hd]
    rfl

/-- A circle that does not fit. -/
theorem circle32_ub {periodic : Bool} {row col r : Int} (h0 : -2 ^ 30 < r) (h1 : r < 2 ^ 30)
    (hf : ¬ CircleFits periodic row col r) (out : Nd Int) :
    circle32 (fun m => ceilSqrt m) periodic (row, col, r) out = ub := by
  suffices h : ∃ di dj, (-r ≤ di ∧ di ≤ r) ∧ (-r ≤ dj ∧ dj ≤ r) ∧ ∀ out,
      (if periodic then stampPeriodic32 (fun m => ceilSqrt m) out row col r di dj
        else stamp32 (fun m => ceilSqrt m) out row col r di dj) = ub by
    obtain ⟨di, dj, hdi, hdj, hub⟩ := h
    unfold circle32
    simp only [range32_ok h0 h1, Outcome.bind]
    refine forM_ub (fun _ _ => plain_forM (fun _ _ => plain_pixel32 _ periodic (row, col, r) _ _ _) _ _) (y := di)
      (fun out => ?_) (mem_range.2 hdi) out
    exact forM_ub (fun _ x => plain_pixel32 _ periodic (row, col, r) _ _ x) (y := dj) hub (mem_range.2 hdj) out
  have hbad : ∀ {a b : Int} (f : Int → Int → Outcome (Nd Int)), ¬ FitsInt a ∨ ¬ FitsInt b →
      ((i32 a).bind fun a => (i32 b).bind fun b => f a b) = ub := fun {a b} f h => by
    rcases h with h | h
    · rw [i32_ub h]; rfl
    · rw [i32_ub h]
      rcases plain_i32 a with e | ⟨x, e⟩ <;> rw [e] <;> rfl
  unfold CircleFits at hf
  cases periodic with
  | true =>
    simp only [if_true] at hf ⊢
    have hr : 1 ≤ r := by
      by_contra h
      exact hf fun h' => absurd h' h
    have hu : ∀ di dj out, (∃ d, |d| = r - 1 ∧ ((di = d ∧ dj = 0) ∨ (di = 0 ∧ dj = d))) →
        (¬ FitsInt (row + di) ∨ ¬ FitsInt (col + dj)) →
        stampPeriodic32 (fun m => ceilSqrt m) out row col r di dj = ub := fun di dj out hd hb => by
      have e : distance (fun m => ceilSqrt m) di dj = r - 1 := by
        obtain ⟨d, hd, ⟨rfl, rfl⟩ | ⟨rfl, rfl⟩⟩ := hd
        · rw [(distance_axis _).1, hd]
        · rw [(distance_axis _).2, hd]
      unfold stampPeriodic32
      rw [e, i32_ok (by unfold FitsInt; omega)]
      simp only [Outcome.bind]
      rw [if_pos (by omega)]
      exact hbad _ hb
    by_cases f1 : FitsInt (row - (r - 1))
    · by_cases f2 : FitsInt (row + (r - 1))
      · by_cases f3 : FitsInt (col - (r - 1))
        · by_cases f4 : FitsInt (col + (r - 1))
          · exact absurd (fun _ => ⟨f1, f2, f3, f4⟩) hf
          · exact ⟨0, r - 1, by omega, by omega, fun out => hu _ _ out
              ⟨r - 1, abs_of_nonneg (by omega), Or.inr ⟨rfl, rfl⟩⟩ (Or.inr f4)⟩
        · exact ⟨0, -(r - 1), by omega, by omega, fun out => hu _ _ out
            ⟨-(r - 1), by rw [abs_neg, abs_of_nonneg (by omega)], Or.inr ⟨rfl, rfl⟩⟩ (Or.inr f3)⟩
      · exact ⟨r - 1, 0, by omega, by omega, fun out => hu _ _ out
          ⟨r - 1, abs_of_nonneg (by omega), Or.inl ⟨rfl, rfl⟩⟩ (Or.inl f2)⟩
    · exact ⟨-(r - 1), 0, by omega, by omega, fun out => hu _ _ out
        ⟨-(r - 1), by rw [abs_neg, abs_of_nonneg (by omega)], Or.inl ⟨rfl, rfl⟩⟩ (Or.inl f1)⟩
  | false =>
    simp only [Bool.false_eq_true, if_false] at hf ⊢
    have hr : 0 ≤ r := by
      by_contra h
      exact hf fun h' => absurd h' h
    by_cases f1 : FitsInt (row - r)
    · by_cases f2 : FitsInt (row + r)
      · by_cases f3 : FitsInt (col - r)
        · by_cases f4 : FitsInt (col + r)
          · exact absurd (fun _ => ⟨f1, f2, f3, f4⟩) hf
          · exact ⟨0, r, by omega, by omega, fun out => hbad _ (Or.inr f4)⟩
        · exact ⟨0, -r, by omega, by omega, fun out => hbad _ (Or.inr f3)⟩
      · exact ⟨r, 0, by omega, by omega, fun out => hbad _ (Or.inl f2)⟩
    · exact ⟨-r, 0, by omega, by omega, fun out => hbad _ (Or.inl f1)⟩

theorem circle_getD {row col r : List Int} (h1 : row.length = col.length) (h2 : row.length = r.length) {i : Nat}
    (hi : i < row.length) : circle row col r i = ok (row.getD i 0, col.getD i 0, r.getD i 0) := by
  unfold circle
  rw [at1_full (by omega : i < col.length), at1_full (by omega : i < r.length)]
  simp only [List.getD, List.getElem?_eq_getElem hi, List.getElem?_eq_getElem (h1 ▸ hi : i < col.length),
    List.getElem?_eq_getElem (h2 ▸ hi : i < r.length), Option.getD_some]

/-- **C110** (partial): for radii below `2 ^ 30`, and circles (in the non-periodic case the squares around them) that
fit in `int`, the image is the one of exact integers. -/
theorem C110_same_partial (dbg : Bool) (m n : Nat) {row col r : List Int} (periodic : Bool)
    (h1 : row.length = col.length) (h2 : row.length = r.length) (hr : ∀ a ∈ r, -2 ^ 30 < a ∧ a < 2 ^ 30)
    (hf : ∀ i < row.length, CircleFits periodic (row.getD i 0) (col.getD i 0) (r.getD i 0)) :
    dummyCircles32 dbg [m, n] row col r periodic = dummyCircles dbg [m, n] row col r periodic := by
  unfold dummyCircles32 dummyCircles circlesWith32 circlesWith
  congr 1
  funext _
  congr 1
  funext _
  congr 1
  funext _
  split
  · rfl
  · refine forM_congr_mem _ _ fun i hi out => ?_
    rw [List.mem_range] at hi
    rw [circle_getD h1 h2 hi]
    have hri := hr (r.getD i 0) (by
      rw [List.getD, List.getElem?_eq_getElem (h2 ▸ hi : i < r.length)]
      exact List.getElem_mem _)
    exact circle32_ok hri.1 hri.2 (hf i hi) out

/-- A circle near the highest `int` of a periodic image, one that is clipped. -/
example : (∀ a ∈ [3, 2], -2 ^ 30 < a ∧ a < (2 : Int) ^ 30) ∧
    ∀ i < 2, CircleFits true ([2147483645, 0].getD i 0) ([0, -1].getD i 0) ([3, 2].getD i 0) := by
  refine ⟨by decide, fun i hi => ?_⟩
  have : i = 0 ∨ i = 1 := by omega
  rcases this with rfl | rfl <;> unfold CircleFits FitsInt <;> simp

/-- **C110**: in particular if all arguments are below `2 ^ 30`. -/
theorem C110_small (dbg : Bool) (m n : Nat) {row col r : List Int} (periodic : Bool)
    (h1 : row.length = col.length) (h2 : row.length = r.length)
    (h : ∀ a ∈ row ++ col ++ r, -2 ^ 30 < a ∧ a < 2 ^ 30) :
    dummyCircles32 dbg [m, n] row col r periodic = dummyCircles dbg [m, n] row col r periodic := by
  refine C110_same_partial dbg m n periodic h1 h2 (fun a ha => h a (by simp [ha])) fun i hi => ?_
  have get : ∀ {l : List Int}, i < l.length → l.getD i 0 ∈ l := fun {l} hl => by
    rw [List.getD, List.getElem?_eq_getElem hl]
    exact List.getElem_mem _
  have a1 := h _ (by simp only [List.mem_append]; exact Or.inl (Or.inl (get hi)))
  have a2 := h _ (by simp only [List.mem_append]; exact Or.inl (Or.inr (get (h1 ▸ hi))))
  have a3 := h _ (by simp only [List.mem_append]; exact Or.inr (get (h2 ▸ hi)))
  unfold CircleFits FitsInt
  split <;> intro _ <;> omega

example : ∀ a ∈ [1000000, -3] ++ [5, 7] ++ [4, 500000000], -2 ^ 30 < a ∧ a < (2 : Int) ^ 30 := by decide

/-- **C110**: a circle that does not fit is undefined behaviour, also if it is outside of the image. -/
theorem C110_overflow (dbg : Bool) (m n : Nat) {row col r : List Int} (periodic : Bool)
    (h1 : row.length = col.length) (h2 : row.length = r.length) (hr : ∀ a ∈ r, -2 ^ 30 < a ∧ a < 2 ^ 30)
    (hf : ∃ i < row.length, ¬ CircleFits periodic (row.getD i 0) (col.getD i 0) (r.getD i 0)) :
    dummyCircles32 dbg [m, n] row col r periodic = ub := by
  obtain ⟨i, hi, hf⟩ := hf
  have hri := hr (r.getD i 0) (by
    rw [List.getD, List.getElem?_eq_getElem (h2 ▸ hi : i < r.length)]
    exact List.getElem_mem _)
  unfold dummyCircles32 circlesWith32 gassert
  rw [decide_eq_true h1, decide_eq_true h2]
  simp only [List.length_cons, List.length_nil, decide_true, Bool.not_true, Bool.and_false]
  exact forM_ub (fun _ _ => plain_bind (plain_circle _ _ _ _) fun _ => plain_circle32 _ _ _ _) (y := i)
    (fun out => by
      rw [circle_getD h1 h2 hi]
      exact circle32_ub hri.1 hri.2 hf out) (List.mem_range.2 hi) _

example : ∃ i < [5, 2147483647].length, ¬ CircleFits false ([5, 2147483647].getD i 0) ([5, 0].getD i 0) ([2, 1].getD i 0) :=
  ⟨1, by decide, by unfold CircleFits FitsInt; decide⟩

/-- A circle far outside of the image, that is drawn nowhere, is undefined behaviour; so is the lowest `int` as radius,
for which no loop is executed. -/
theorem C110_violated (dbg : Bool) :
    dummyCircles32 dbg [3, 4] [2147483647] [0] [1] false = ub ∧
    (dummyCircles dbg [3, 4] [2147483647] [0] [1] false).map Nd.toList = ok (List.replicate 12 0) ∧
    dummyCircles32 dbg [3, 4] [0] [0] [-2147483648] true = ub ∧
    (dummyCircles dbg [3, 4] [0] [0] [-2147483648] true).map Nd.toList = ok (List.replicate 12 0) := by
  refine ⟨?_, ?_, ?_, ?_⟩
  · exact C110_overflow dbg 3 4 false rfl rfl (by decide) ⟨0, by decide, by unfold CircleFits FitsInt; decide⟩
  · cases dbg <;> decide +kernel
  · cases dbg <;> rfl
  · cases dbg <;> decide +kernel

end Verif.Props
