import Verif.Props.Dummy32

/-!
# Overflow in `dummy_circles` for circles of any radius (C110)
-/

namespace Verif.Props

open Verif Outcome Spec Dummy Verif.Path

/-- All integers that are evaluated for one circle fit, for any radius: the negative radius, the counter behind the last
step, the distances (in the periodic case to the corner of the square, in the non-periodic case to the pixels of the
image in the square) and the coordinates (in the periodic case of the disc, in the non-periodic case of the square). -/
def CircleFitsAny (periodic : Bool) (m n : Nat) (row col r : Int) : Prop :=
  FitsInt (-r) ∧ (0 ≤ r → FitsInt (r + 1) ∧
    if periodic then 2 * r ^ 2 ≤ (2 ^ 31 - 1) ^ 2 ∧ (1 ≤ r → FitsInt (row - (r - 1)) ∧ FitsInt (row + (r - 1)) ∧
      FitsInt (col - (r - 1)) ∧ FitsInt (col + (r - 1)))
    else FitsInt (row - r) ∧ FitsInt (row + r) ∧ FitsInt (col - r) ∧ FitsInt (col + r) ∧
      ∀ x y : Int, 0 ≤ x → x < m → 0 ≤ y → y < n → row - r ≤ x → x ≤ row + r → col - r ≤ y → y ≤ col + r →
        (x - row) ^ 2 + (y - col) ^ 2 ≤ (2 ^ 31 - 1) ^ 2)

theorem distance_fits (di dj : Int) :
    FitsInt (distance (fun m => ceilSqrt m) di dj) ↔ di ^ 2 + dj ^ 2 ≤ (2 ^ 31 - 1) ^ 2 := by
  have h0 : 0 ≤ distance (fun m => ceilSqrt m) di dj := by unfold distance; dsimp only; omega
  have h := (distance_lt (r := 2 ^ 31) (di := di) (dj := dj)).trans inDisc_iff
  unfold FitsInt
  constructor
  · intro hf
    exact (h.1 hf.2).2
  · intro hs
    exact ⟨by omega, h.2 ⟨by norm_num, hs⟩⟩

theorem range32_fits {r : Int} (h : FitsInt (-r)) (h1 : 0 ≤ r → FitsInt (r + 1)) : range32 r = ok (range r) := by
  unfold range32
  rw [i32_ok h]
  simp only [Outcome.bind]
  split
  · rw [show range r = [] by
      unfold range
      rw [show (2 * r + 1).toNat = 0 by omega]
      rfl]
  · rw [i32_ok (h1 (by omega))]

theorem inside_pair {m n : Nat} {a b : Int} : Nd.inside [m, n] [a, b] = true ↔ (0 ≤ a ∧ a < m) ∧ (0 ≤ b ∧ b < n) := by
  simp [Nd.inside]

/-- Undefined, or returns an image of the same shape. -/
def Shaped (shape : List Nat) (x : Outcome (Nd Int)) : Prop := x = ub ∨ ∃ a, x = ok a ∧ a.shape = shape

theorem shaped_bind {α : Type} {shape : List Nat} {x : Outcome α} {f : α → Outcome (Nd Int)} (h : Plain x)
    (hf : ∀ a, Shaped shape (f a)) : Shaped shape (x.bind f) := by
  rcases h with rfl | ⟨a, rfl⟩
  · exact Or.inl rfl
  · exact hf a

theorem shaped_write {shape : List Nat} {out : Nd Int} (hs : out.shape = shape) (x : List Int) (v : Int) :
    Shaped shape (out.write x v) := by
  unfold Nd.write
  split
  · exact Or.inr ⟨_, rfl, hs⟩
  · exact Or.inl rfl

theorem shaped_forM {α : Type} {shape : List Nat} {f : Nd Int → α → Outcome (Nd Int)}
    (hf : ∀ s x, s.shape = shape → Shaped shape (f s x)) :
    ∀ (l : List α) (s : Nd Int), s.shape = shape → Shaped shape (forM l s f)
  | [], s, hs => Or.inr ⟨s, rfl, hs⟩
  | x :: l, s, hs => by
    rw [forM]
    rcases hf s x hs with e | ⟨a, e, ha⟩
    · rw [e]; exact Or.inl rfl
    · rw [e]; exact shaped_forM hf l a ha

theorem shaped_congr {α : Type} {shape : List Nat} {f g : Nd Int → α → Outcome (Nd Int)}
    (hg : ∀ s x, s.shape = shape → Shaped shape (g s x)) :
    ∀ (l : List α) (s : Nd Int), s.shape = shape → (∀ x ∈ l, ∀ s, s.shape = shape → f s x = g s x) →
      forM l s f = forM l s g
  | [], _, _, _ => rfl
  | x :: l, s, hs, h => by
    rw [forM, forM, h x (by simp) s hs]
    rcases hg s x hs with e | ⟨a, e, ha⟩
    · rw [e]; rfl
    · rw [e]
      exact shaped_congr hg l a ha fun y hy => h y (by simp [hy])

theorem shaped_ub {α : Type} {shape : List Nat} {f : Nd Int → α → Outcome (Nd Int)}
    (hf : ∀ s x, s.shape = shape → Shaped shape (f s x)) {y : α} (hy : ∀ s, s.shape = shape → f s y = ub) :
    ∀ {l : List α}, y ∈ l → ∀ s : Nd Int, s.shape = shape → forM l s f = ub
  | x :: l, h, s, hs => by
    rw [forM]
    rcases List.mem_cons.1 h with rfl | h
    · rw [hy s hs]; rfl
    · rcases hf s x hs with e | ⟨a, e, ha⟩
      · rw [e]; rfl
      · rw [e]
        exact shaped_ub hf hy h a ha

variable {shape : List Nat} {root : Nat → Int} {out : Nd Int} {row col r : Int} {m n : Nat}

theorem shaped_pixel (periodic : Bool) (hs : out.shape = shape) (di dj : Int) :
    Shaped shape (if periodic then stampPeriodic root out row col r di dj else stamp root out row col r di dj) := by
  split
  · unfold stampPeriodic
    split
    · exact shaped_bind (plain_periodicIndex _ _) fun x => shaped_write hs _ _
    · exact Or.inr ⟨_, rfl, hs⟩
  · unfold stamp
    split
    · split
      · exact shaped_write hs _ _
      · exact Or.inr ⟨_, rfl, hs⟩
    · exact Or.inr ⟨_, rfl, hs⟩

theorem shaped_pixel32 (periodic : Bool) (hs : out.shape = shape) (di dj : Int) :
    Shaped shape (if periodic then stampPeriodic32 root out row col r di dj else stamp32 root out row col r di dj) := by
  split
  · unfold stampPeriodic32
    refine shaped_bind (plain_i32 _) fun dr => ?_
    split
    · exact shaped_bind (plain_i32 _) fun a => shaped_bind (plain_i32 _) fun b =>
        shaped_bind (plain_periodicIndex _ _) fun x => shaped_write hs _ _
    · exact Or.inr ⟨_, rfl, hs⟩
  · unfold stamp32
    refine shaped_bind (plain_i32 _) fun a => shaped_bind (plain_i32 _) fun b => ?_
    split
    · refine shaped_bind (plain_i32 _) fun dr => ?_
      split
      · exact shaped_write hs _ _
      · exact Or.inr ⟨_, rfl, hs⟩
    · exact Or.inr ⟨_, rfl, hs⟩

theorem shaped_circle32 (periodic : Bool) (c : Int × Int × Int) (hs : out.shape = shape) :
    Shaped shape (circle32 root periodic c out) :=
  shaped_bind (plain_range32 _) fun _ => shaped_forM (fun _ _ hs => shaped_bind (plain_range32 _) fun _ =>
    shaped_forM (fun _ _ hs => shaped_pixel32 periodic hs _ _) _ _ hs) _ _ hs

/-- A circle that fits. -/
theorem circle32_fits {periodic : Bool} (hf : CircleFitsAny periodic m n row col r) (hs : out.shape = [m, n]) :
    circle32 (fun m => ceilSqrt m) periodic (row, col, r) out =
      forM (range r) out fun out di => forM (range r) out fun out dj =>
        if periodic then stampPeriodic (fun m => ceilSqrt m) out row col r di dj
        else stamp (fun m => ceilSqrt m) out row col r di dj := by
  obtain ⟨h0, hf⟩ := hf
  unfold circle32
  simp only [range32_fits h0 fun h => (hf h).1, Outcome.bind]
  refine shaped_congr (fun s x hs => shaped_forM (fun s y hs => shaped_pixel periodic hs _ _) _ _ hs) _ _ hs
    fun di hdi out hs => shaped_congr (fun s y hs => shaped_pixel periodic hs _ _) _ _ hs fun dj hdj out hs => ?_
  rw [mem_range] at hdi hdj
  obtain ⟨-, hf⟩ := hf (by omega)
  cases periodic with
  | true =>
    simp only [if_true] at hf ⊢
    have hd : FitsInt (distance (fun m => ceilSqrt m) di dj) := by
      rw [distance_fits]
      have h1 : di ^ 2 ≤ r ^ 2 := by nlinarith
      have h2 : dj ^ 2 ≤ r ^ 2 := by nlinarith
      linarith [hf.1]
    unfold stampPeriodic32 stampPeriodic
    rw [i32_ok hd]
    simp only [Outcome.bind]
    split
    · rename_i hlt
      obtain ⟨hr1, hsq⟩ := inDisc_iff.1 ((distance_lt (r := r) (di := di) (dj := dj)).1 hlt)
      obtain ⟨f1, f2, f3, f4⟩ := hf.2 hr1
      have b1 : |di| ≤ r - 1 := abs_le_of_sq_le_sq (by nlinarith) (by omega)
      have b2 : |dj| ≤ r - 1 := abs_le_of_sq_le_sq (by nlinarith) (by omega)
      rw [abs_le] at b1 b2
      unfold FitsInt at f1 f2 f3 f4
      rw [i32_ok (by unfold FitsInt; omega), i32_ok (by unfold FitsInt; omega)]
      rfl
    · rfl
  | false =>
    simp only [Bool.false_eq_true, if_false] at hf ⊢
    obtain ⟨f1, f2, f3, f4, f5⟩ := hf
    unfold FitsInt at f1 f2 f3 f4
    unfold stamp32 stamp
    rw [i32_ok (by unfold FitsInt; omega), i32_ok (by unfold FitsInt; omega)]
    simp only [Outcome.bind]
    split
    · rename_i hin
      rw [hs, inside_pair] at hin
      have hd : FitsInt (distance (fun m => ceilSqrt m) di dj) := by
        rw [distance_fits]
        have := f5 (row + di) (col + dj) hin.1.1 hin.1.2 hin.2.1 hin.2.2 (by omega) (by omega) (by omega) (by omega)
        rwa [show row + di - row = di by ring, show col + dj - col = dj by ring] at this
      rw [i32_ok hd]
    · rfl

/-- A circle of which one pixel is undefined. -/
theorem circle32_pixel {periodic : Bool} (h0 : FitsInt (-r)) (h1 : FitsInt (r + 1)) (hs : out.shape = [m, n])
    {di dj : Int} (hdi : -r ≤ di ∧ di ≤ r) (hdj : -r ≤ dj ∧ dj ≤ r)
    (hub : ∀ out : Nd Int, out.shape = [m, n] → (if periodic then stampPeriodic32 root out row col r di dj
      else stamp32 root out row col r di dj) = ub) : circle32 root periodic (row, col, r) out = ub := by
  unfold circle32
  simp only [range32_fits h0 fun _ => h1, Outcome.bind]
  exact shaped_ub (fun s x hs => shaped_forM (fun s y hs => shaped_pixel32 periodic hs _ _) _ _ hs) (y := di)
    (fun out hs => shaped_ub (fun s x hs => shaped_pixel32 periodic hs _ x) (y := dj) hub (mem_range.2 hdj) out hs)
    (mem_range.2 hdi) out hs

/-- A circle that does not fit. -/
theorem circle32_overflows {periodic : Bool} (hf : ¬ CircleFitsAny periodic m n row col r) (hs : out.shape = [m, n]) :
    circle32 (fun m => ceilSqrt m) periodic (row, col, r) out = ub := by
  by_cases h0 : FitsInt (-r)
  swap
  · unfold circle32 range32
    rw [i32_ub h0]
    rfl
  by_cases hr : 0 ≤ r
  swap
  · exact absurd ⟨h0, fun h => absurd h hr⟩ hf
  by_cases h1 : FitsInt (r + 1)
  swap
  · unfold circle32 range32
    rw [i32_ok h0, i32_ub h1]
    simp only [Outcome.bind, if_neg (by omega : ¬ r < 0)]
  have hbad : ∀ {a b : Int} (f : Int → Int → Outcome (Nd Int)), ¬ FitsInt a ∨ ¬ FitsInt b →
      ((i32 a).bind fun a => (i32 b).bind fun b => f a b) = ub := fun {a b} f h => by
    rcases h with h | h
    · rw [i32_ub h]; rfl
    · rw [i32_ub h]
      rcases plain_i32 a with e | ⟨x, e⟩ <;> rw [e] <;> rfl
  cases periodic with
  | true =>
    by_cases hc : 2 * r ^ 2 ≤ (2 ^ 31 - 1) ^ 2
    swap
    · refine circle32_pixel h0 h1 hs (di := r) (dj := r) (by omega) (by omega) fun out _ => ?_
      simp only [if_true]
      unfold stampPeriodic32
      rw [i32_ub (fun h => hc (by rw [distance_fits] at h; linarith))]
      rfl
    have hr1 : 1 ≤ r := by
      by_contra h
      exact hf ⟨h0, fun _ => ⟨h1, by simp only [if_true]; exact ⟨hc, fun h' => absurd h' h⟩⟩⟩
    have hu : ∀ di dj out, (∃ d, |d| = r - 1 ∧ ((di = d ∧ dj = 0) ∨ (di = 0 ∧ dj = d))) →
        (¬ FitsInt (row + di) ∨ ¬ FitsInt (col + dj)) →
        (if true = true then stampPeriodic32 (fun m => ceilSqrt m) out row col r di dj
          else stamp32 (fun m => ceilSqrt m) out row col r di dj) = ub := fun di dj out hd hb => by
      have e : distance (fun m => ceilSqrt m) di dj = r - 1 := by
        obtain ⟨d, hd, ⟨rfl, rfl⟩ | ⟨rfl, rfl⟩⟩ := hd
        · rw [(distance_axis _).1, hd]
        · rw [(distance_axis _).2, hd]
      rw [if_pos rfl]
      unfold stampPeriodic32
      rw [e, i32_ok (by unfold FitsInt at h1 ⊢; omega)]
      simp only [Outcome.bind]
      rw [if_pos (by omega)]
      exact hbad _ hb
    by_cases f1 : FitsInt (row - (r - 1))
    · by_cases f2 : FitsInt (row + (r - 1))
      · by_cases f3 : FitsInt (col - (r - 1))
        · by_cases f4 : FitsInt (col + (r - 1))
          · exact absurd ⟨h0, fun _ => ⟨h1, by simp only [if_true]; exact ⟨hc, fun _ => ⟨f1, f2, f3, f4⟩⟩⟩⟩ hf
          · exact circle32_pixel h0 h1 hs (di := 0) (dj := r - 1) (by omega) (by omega) fun out _ => hu _ _ out
              ⟨r - 1, abs_of_nonneg (by omega), Or.inr ⟨rfl, rfl⟩⟩ (Or.inr f4)
        · exact circle32_pixel h0 h1 hs (di := 0) (dj := -(r - 1)) (by omega) (by omega) fun out _ => hu _ _ out
            ⟨-(r - 1), by rw [abs_neg, abs_of_nonneg (by omega)], Or.inr ⟨rfl, rfl⟩⟩ (Or.inr f3)
      · exact circle32_pixel h0 h1 hs (di := r - 1) (dj := 0) (by omega) (by omega) fun out _ => hu _ _ out
          ⟨r - 1, abs_of_nonneg (by omega), Or.inl ⟨rfl, rfl⟩⟩ (Or.inl f2)
    · exact circle32_pixel h0 h1 hs (di := -(r - 1)) (dj := 0) (by omega) (by omega) fun out _ => hu _ _ out
        ⟨-(r - 1), by rw [abs_neg, abs_of_nonneg (by omega)], Or.inl ⟨rfl, rfl⟩⟩ (Or.inl f1)
  | false =>
    have hu : ∀ di dj out, (¬ FitsInt (row + di) ∨ ¬ FitsInt (col + dj)) →
        (if false = true then stampPeriodic32 (fun m => ceilSqrt m) out row col r di dj
          else stamp32 (fun m => ceilSqrt m) out row col r di dj) = ub := fun di dj out hb => by
      rw [if_neg (by simp)]
      exact hbad _ hb
    by_cases f1 : FitsInt (row - r)
    · by_cases f2 : FitsInt (row + r)
      · by_cases f3 : FitsInt (col - r)
        · by_cases f4 : FitsInt (col + r)
          · have hx : ∃ x y : Int, (0 ≤ x ∧ x < m ∧ 0 ≤ y ∧ y < n) ∧ (row - r ≤ x ∧ x ≤ row + r) ∧
                (col - r ≤ y ∧ y ≤ col + r) ∧ ¬ (x - row) ^ 2 + (y - col) ^ 2 ≤ (2 ^ 31 - 1) ^ 2 := by
              by_contra hne
              refine hf ⟨h0, fun _ => ⟨h1, ?_⟩⟩
              rw [if_neg (by simp)]
              refine ⟨f1, f2, f3, f4, fun x y a1 a2 a3 a4 a5 a6 a7 a8 => ?_⟩
              by_contra hbig
              exact hne ⟨x, y, ⟨a1, a2, a3, a4⟩, ⟨a5, a6⟩, ⟨a7, a8⟩, hbig⟩
            obtain ⟨x, y, hin, hx, hy, hbig⟩ := hx
            refine circle32_pixel h0 h1 hs (di := x - row) (dj := y - col) (by omega) (by omega) fun out hs => ?_
            rw [if_neg (by simp)]
            unfold stamp32 FitsInt at *
            rw [i32_ok (by unfold FitsInt; omega), i32_ok (by unfold FitsInt; omega)]
            simp only [Outcome.bind]
            rw [if_pos (by rw [hs, inside_pair]; omega), i32_ub (fun h => hbig ((distance_fits _ _).1 h))]
          · exact circle32_pixel h0 h1 hs (di := 0) (dj := r) (by omega) (by omega) fun out _ => hu _ _ out (Or.inr f4)
        · exact circle32_pixel h0 h1 hs (di := 0) (dj := -r) (by omega) (by omega) fun out _ => hu _ _ out (Or.inr f3)
      · exact circle32_pixel h0 h1 hs (di := r) (dj := 0) (by omega) (by omega) fun out _ => hu _ _ out (Or.inl f2)
    · exact circle32_pixel h0 h1 hs (di := -r) (dj := 0) (by omega) (by omega) fun out _ => hu _ _ out (Or.inl f1)

/-- **C110**, for circles of any position and radius: the image is the one of exact integers if all circles fit, and the
call is undefined if one does not, also where the circle is outside of the image. -/
theorem C110_decided (dbg : Bool) (m n : Nat) {row col r : List Int} (periodic : Bool)
    (h1 : row.length = col.length) (h2 : row.length = r.length) :
    ((∀ i < row.length, CircleFitsAny periodic m n (row.getD i 0) (col.getD i 0) (r.getD i 0)) →
      dummyCircles32 dbg [m, n] row col r periodic = dummyCircles dbg [m, n] row col r periodic) ∧
    ((∃ i < row.length, ¬ CircleFitsAny periodic m n (row.getD i 0) (col.getD i 0) (r.getD i 0)) →
      dummyCircles32 dbg [m, n] row col r periodic = ub) := by
  refine ⟨fun hf => ?_, fun ⟨i, hi, hf⟩ => ?_⟩
  · unfold dummyCircles32 dummyCircles circlesWith32 circlesWith
    congr 1
    funext _
    congr 1
    funext _
    congr 1
    funext _
    split
    · rfl
    · refine shaped_congr (shape := [m, n]) (fun s i hs => shaped_bind (plain_circle _ _ _ _) fun c =>
        shaped_forM (fun s x hs => shaped_forM (fun s y hs => shaped_pixel periodic hs _ _) _ _ hs) _ _ hs) _ _ rfl
        fun i hi out hs => ?_
      rw [List.mem_range] at hi
      rw [circle_getD h1 h2 hi]
      exact circle32_fits (hf i hi) hs
  · unfold dummyCircles32 circlesWith32 gassert
    rw [decide_eq_true h1, decide_eq_true h2]
    simp only [List.length_cons, List.length_nil, decide_true, Bool.not_true, Bool.and_false]
    exact shaped_ub (shape := [m, n]) (fun _ _ hs => shaped_bind (plain_circle _ _ _ _) fun _ => shaped_circle32 _ _ hs)
      (y := i) (fun out hs => by
        rw [circle_getD h1 h2 hi]
        exact circle32_overflows hf hs) (List.mem_range.2 hi) _ rfl

/-- Circles with radii above `2 ^ 30`: around the origin of a periodic image one that fits and one that does not, because
of the distance to the corner of the square; in a small image without periodicity the latter fits. -/
example : CircleFitsAny true 3 4 0 0 1518500249 ∧ ¬ CircleFitsAny true 3 4 0 0 1518500250 ∧
    CircleFitsAny false 3 4 0 0 1518500250 ∧ ¬ CircleFitsAny false 3 4 1 0 2147483647 := by
  refine ⟨?_, ?_, ?_, ?_⟩
  · unfold CircleFitsAny FitsInt; norm_num
  · unfold CircleFitsAny FitsInt; norm_num
  · refine ⟨by unfold FitsInt; norm_num, fun _ => ⟨by unfold FitsInt; norm_num, ?_⟩⟩
    rw [if_neg (by simp)]
    unfold FitsInt
    refine ⟨by norm_num, by norm_num, by norm_num, by norm_num, fun x y a1 a2 a3 a4 _ _ _ _ => ?_⟩
    norm_num at a2 a4 ⊢
    nlinarith
  · unfold CircleFitsAny FitsInt; norm_num

end Verif.Props
