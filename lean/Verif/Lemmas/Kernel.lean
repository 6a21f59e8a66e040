import Verif.Lemmas.Adjacency
import Mathlib.Data.List.Nodup
import Mathlib.Tactic.Ring

/-!
# Lemmas on `kernelToDx`
-/

namespace Verif.Kernel

open Verif Outcome Spec Cluster

/-- Coordinates as integers. -/
def cast (x : List Nat) : List Int := x.map fun (i : Nat) => (i : Int)

theorem cast_inj : ∀ {x y : List Nat}, cast x = cast y → x = y
  | [], [], _ => rfl
  | [], _ :: _, h => by simp [cast] at h
  | _ :: _, [], h => by simp [cast] at h
  | a :: x, b :: y, h => by
    simp only [cast, List.map_cons, List.cons.injEq] at h
    rw [cast_inj (x := x) (y := y) h.2]
    have := h.1
    have : a = b := by omega
    rw [this]

theorem mem_indices : ∀ {shape x : List Nat}, x ∈ indices shape ↔ InBox shape (cast x)
  | [], x => by
    cases x <;> simp [indices, InBox, cast]
  | n :: s, x => by
    simp only [indices, List.mem_flatMap, List.mem_range, List.mem_map, InBox]
    constructor
    · rintro ⟨i, hi, r, hr, rfl⟩
      have := (mem_indices (shape := s)).1 hr
      refine List.Forall₂.cons ⟨by simp, ?_⟩ this
      show (i : Int) < n
      exact_mod_cast hi
    · intro h
      match x with
      | [] => cases h
      | i :: r =>
        simp only [cast, List.map_cons] at h
        cases h with
        | cons h1 h2 => exact ⟨i, by omega, r, (mem_indices (shape := s)).2 h2, rfl⟩

theorem exists_cast : ∀ {shape : List Nat} {x : List Int}, InBox shape x → ∃ r, cast r = x
  | [], [], _ => ⟨[], rfl⟩
  | n :: s, i :: x, h => by
    cases h with
    | cons h1 h2 =>
      obtain ⟨r, hr⟩ := exists_cast (shape := s) h2
      refine ⟨i.toNat :: r, ?_⟩
      simp only [cast, List.map_cons, List.cons.injEq]
      exact ⟨by omega, hr⟩

theorem range_mul (n P : Nat) :
    (List.range n).flatMap (fun i => (List.range P).map fun k => i * P + k) = List.range (n * P) := by
  induction n with
  | zero => simp
  | succ n ih =>
    rw [List.range_succ, List.flatMap_append, ih, Nat.succ_mul, List.range_add]
    simp

theorem map_flat_indices : ∀ (shape : List Nat),
    (indices shape).map (fun x => (flat shape (cast x)).toNat) = List.range shape.prod
  | [] => by simp [indices, flat]
  | n :: s => by
    rw [List.prod_cons, ← range_mul, indices, List.map_flatMap]
    congr 1
    funext i
    rw [← map_flat_indices s, List.map_map, List.map_map]
    apply List.map_congr_left
    intro r hr
    have h0 := flat_range (mem_indices.1 hr)
    simp only [Function.comp, cast, List.map_cons, flat]
    have e : flat s (cast r) = flat s (List.map (fun i : Nat => (i : Int)) r) := rfl
    rw [← e]
    have : (i : Int) * (s.prod : Nat) = ((i * s.prod : Nat) : Int) := by push_cast; rfl
    rw [this]
    omega

theorem indices_nodup (shape : List Nat) : (indices shape).Nodup := by
  have h : ((indices shape).map (fun x => (flat shape (cast x)).toNat)).Nodup := by
    rw [map_flat_indices]; exact List.nodup_range
  exact List.Nodup.of_map _ h

theorem zip_map_self {α β : Type} (l : List α) (f : α → β) :
    l.zip (l.map f) = l.map fun x => (x, f x) := by
  induction l with
  | nil => rfl
  | cons a l ih => simp [ih]

/-- The centre of a kernel of odd shape. -/
theorem mids_inbox : ∀ {shape : List Nat}, (∀ n ∈ shape, n % 2 = 1 ∧ n < 2 ^ 64) → InBox shape (mids shape)
  | [], _ => .nil
  | n :: s, h => by
    refine .cons ?_ (mids_inbox fun m hm => h m (by simp [hm]))
    have := h n (by simp)
    show 0 ≤ toSize ((n : Int) - 1) / 2 ∧ toSize ((n : Int) - 1) / 2 < n
    rw [toSize_of_lt (by omega) (by omega)]
    omega

theorem mids_eq {shape : List Nat} (h : ∀ n ∈ shape, n % 2 = 1 ∧ n < 2 ^ 64) :
    mids shape = shape.map fun (n : Nat) => ((n / 2 : Nat) : Int) := by
  apply List.map_congr_left
  intro n hn
  have := h n hn
  rw [toSize_of_lt (by omega) (by omega)]
  omega

theorem midFold : ∀ {shape : List Nat} (a : Int), (∀ n ∈ shape, n % 2 = 1 ∧ n < 2 ^ 64) →
    ((mids shape).zip (xstrides shape)).foldl (fun a p => a + p.1 * (p.2 : Int)) a =
      a + flat shape (mids shape)
  | [], a, _ => by simp [mids, flat]
  | n :: s, a, h => by
    have hn := h n (by simp)
    have ih := midFold (shape := s) (a + (toSize ((n : Int) - 1) / 2) *
      (((if n = 1 then 0 else prodShape s) : Nat) : Int)) (fun m hm => h m (by simp [hm]))
    show ((mids s).zip (xstrides s)).foldl _ (a + (toSize ((n : Int) - 1) / 2) *
      (((if n = 1 then 0 else prodShape s) : Nat) : Int)) = _
    rw [ih]
    show _ = a + ((toSize ((n : Int) - 1) / 2) * (s.prod : Nat) + flat s (mids s))
    rw [toSize_of_lt (by omega) (by omega), prodShape_eq]
    by_cases h1 : n = 1
    · subst h1; simp
    · rw [if_neg h1]; ring

theorem midIndex_eq {shape : List Nat} (h : ∀ n ∈ shape, n % 2 = 1 ∧ n < 2 ^ 64) :
    midIndex shape = flat shape (mids shape) := by
  unfold midIndex
  rw [midFold 0 h, zero_add]

/-- The offset from the centre. -/
def fromMid (shape : List Nat) (x : List Nat) : List Int :=
  List.zipWith (fun (i : Nat) (m : Int) => (i : Int) - m) x (mids shape)

theorem kernelToDx_ok (dbg : Bool) {k : Kern} (hodd : ∀ n ∈ k.shape, n % 2 = 1 ∧ n < 2 ^ 64)
    (hlen : k.flat.length = k.shape.prod)
    (hc : k.flat.getD (flat k.shape (mids k.shape)).toNat 0 = 1) :
    kernelToDx dbg k = ok (((indices k.shape).filter fun x =>
      decide (cast x ≠ mids k.shape) && k.flat.getD (flat k.shape (cast x)).toNat 0 != 0).map
        (fromMid k.shape)) := by
  have hr := flat_range (mids_inbox hodd)
  have h1 : (dbg && k.shape.any (fun n => n % 2 != 1)) = false := by
    rw [Bool.and_eq_false_iff]
    right
    rw [List.any_eq_false]
    intro n hn
    simp [(hodd n hn).1]
  unfold kernelToDx
  rw [h1, midIndex_eq hodd]
  simp only [Bool.false_eq_true, if_false]
  have hrd : (Vec.ofList k.flat).read (flat k.shape (mids k.shape)) = ok 1 := by
    unfold Vec.read Vec.ofList
    rw [if_pos ⟨hr.1, by rw [hlen]; exact hr.2⟩]
    show ok (k.flat.getD _ 0) = ok 1
    rw [hc]
  have hwr : ((Vec.ofList k.flat).write (flat k.shape (mids k.shape)) 0) =
      ok ⟨k.flat.length, fun j => if j = (flat k.shape (mids k.shape)).toNat then 0 else
        k.flat.getD j 0⟩ := by
    unfold Vec.write Vec.ofList
    rw [if_pos ⟨hr.1, by rw [hlen]; exact hr.2⟩]
    rfl
  rw [hrd]
  simp only [Outcome.bind, hwr]
  rw [if_neg (by simp)]
  congr 1
  unfold Vec.toList
  simp only
  rw [hlen, ← map_flat_indices, List.map_map, zip_map_self, List.filter_map, List.map_map]
  have : (indices k.shape).filter ((fun p : List Nat × Int => p.2 != 0) ∘ fun x => (x,
      ((fun j => if j = (flat k.shape (mids k.shape)).toNat then 0 else k.flat.getD j 0) ∘
        fun x => (flat k.shape (cast x)).toNat) x)) =
      (indices k.shape).filter fun x =>
        decide (cast x ≠ mids k.shape) && k.flat.getD (flat k.shape (cast x)).toNat 0 != 0 := by
    apply List.filter_congr
    intro x hx
    have hx' := mem_indices.1 hx
    have hxr := flat_range hx'
    simp only [Function.comp]
    by_cases he : cast x = mids k.shape
    · rw [if_pos (by rw [he])]
      simp [he]
    · rw [if_neg]
      · simp [he]
      · intro e
        exact he (flat_inj hx' (mids_inbox hodd) (by omega))
  rw [this]
  rfl

theorem fromMid_inj {x y : List Nat} {m : List Int} : x.length = m.length → y.length = m.length →
    List.zipWith (fun (i : Nat) (m : Int) => (i : Int) - m) x m =
      List.zipWith (fun (i : Nat) (m : Int) => (i : Int) - m) y m → x = y := by
  induction m generalizing x y with
  | nil => intro h1 h2 _; simp at h1 h2; rw [h1, h2]
  | cons a m ih =>
    intro h1 h2 h3
    match x, y with
    | [], _ => simp at h1
    | _ :: _, [] => simp at h2
    | i :: x, j :: y =>
      simp only [List.zipWith_cons_cons, List.cons.injEq] at h3
      rw [ih (by simpa using h1) (by simpa using h2) h3.2]
      have : i = j := by omega
      rw [this]

theorem cast_length (x : List Nat) : (cast x).length = x.length := by simp [cast]

theorem inbox_length {shape : List Nat} {x : List Int} (h : InBox shape x) :
    x.length = shape.length := (List.Forall₂.length_eq h).symm

theorem dx_nodup (k : Kern) (p : List Nat → Bool) :
    (((indices k.shape).filter p).map (fromMid k.shape)).Nodup := by
  apply List.Nodup.map_on
  · intro x hx y hy h
    have hx' := inbox_length (mem_indices.1 (List.mem_filter.1 hx).1)
    have hy' := inbox_length (mem_indices.1 (List.mem_filter.1 hy).1)
    rw [cast_length] at hx' hy'
    exact fromMid_inj (by simp [mids, hx']) (by simp [mids, hy']) h
  · exact (indices_nodup _).filter _

theorem fromMid_cast (shape : List Nat) (x : List Nat) :
    fromMid shape x = List.zipWith (· - ·) (cast x) (mids shape) := by
  unfold fromMid cast
  rw [List.zipWith_map_left]

end Verif.Kernel
