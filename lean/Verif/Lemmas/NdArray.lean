import Verif.Spec.Ensemble
import Verif.Lemmas.Adjacency
import Verif.Lemmas.Kernel

/-! # xtensor containers: reading, padding, views, loops -/

namespace Verif

open Outcome Spec Cluster Nd

theorem unravel_flat : ∀ {shape : List Nat} {x : List Int}, InBox shape x →
    unravel shape (flat shape x).toNat = x
  | [], _, h => by cases h; rfl
  | n :: s, _, h => by
    cases h with
    | cons h1 h2 =>
      rename_i i x
      have r := flat_range h2
      obtain ⟨a, ha⟩ := Int.eq_ofNat_of_zero_le h1.1
      obtain ⟨b, hb⟩ := Int.eq_ofNat_of_zero_le r.1
      subst ha
      have hb' : b < s.prod := by omega
      have e : (flat (n :: s) ((a : Int) :: x)).toNat = a * s.prod + b := by
        simp only [flat, hb]
        have : (a : Int) * (s.prod : Nat) + (b : Int) = ((a * s.prod + b : Nat) : Int) := by push_cast; ring
        rw [this]
        exact Int.toNat_natCast _
      rw [e]
      simp only [unravel, prodShape_eq]
      have e1 : (a * s.prod + b) / s.prod = a := by
        rw [mul_comm, Nat.mul_add_div (by omega), Nat.div_eq_of_lt hb']; omega
      have e2 : (a * s.prod + b) % s.prod = b := by
        rw [mul_comm, Nat.mul_add_mod, Nat.mod_eq_of_lt hb']
      rw [e1, e2]
      have := unravel_flat h2
      rw [hb] at this
      simpa using this

theorem unravel_inbox : ∀ {shape : List Nat} {k : Nat}, k < shape.prod →
    InBox shape (unravel shape k) ∧ (flat shape (unravel shape k)).toNat = k
  | [], k, h => by
    simp at h
    subst h
    exact ⟨.nil, rfl⟩
  | n :: s, k, h => by
    rw [List.prod_cons] at h
    have hs : 0 < s.prod := by
      rcases Nat.eq_zero_or_pos s.prod with h0 | h0
      · rw [h0] at h; omega
      · exact h0
    obtain ⟨h1, h2⟩ := unravel_inbox (shape := s) (Nat.mod_lt k hs)
    simp only [unravel, prodShape_eq]
    refine ⟨.cons ⟨Int.natCast_nonneg _, ?_⟩ h1, ?_⟩
    · have : k / s.prod < n := Nat.div_lt_of_lt_mul (by rw [mul_comm]; exact h)
      exact_mod_cast this
    · have r := flat_range h1
      simp only [flat]
      have e : ((k / s.prod : Nat) : Int) * (s.prod : Nat) + flat s (unravel s (k % s.prod)) = (k : Int) := by
        have h3 : flat s (unravel s (k % s.prod)) = ((k % s.prod : Nat) : Int) := by omega
        rw [h3]
        have := Nat.div_add_mod' k s.prod
        exact_mod_cast this
      rw [e]
      rfl

variable {α β γ : Type}

theorem at_eq_val {a : Nd α} {x : List Int} (h : InBox a.shape x) : a.at_ x = val a x := by
  simp only [Nd.at_, val, ravelIndex_eq h]

theorem val_ofFn {s : List Nat} {φ : List Int → α} {x : List Int} (h : InBox s x) :
    val (Nd.ofFn s φ) x = φ x := by
  show φ (unravel s (flat s x).toNat) = φ x
  rw [unravel_flat h]

theorem valid_of_inbox {a : Nd α} {x : List Int} (h : InBox a.shape x) : a.valid x = true := by
  have r := flat_range h
  unfold Nd.valid
  rw [decide_eq_true_eq, ravelIndex_eq h, Nd.size, prodShape_eq]
  exact ⟨(List.Forall₂.length_eq h).symm, r⟩

theorem read_ok {a : Nd α} {x : List Int} (h : InBox a.shape x) : a.read x = ok (val a x) := by
  rw [Nd.read, if_pos (valid_of_inbox h), at_eq_val h]

theorem inside_iff : ∀ {s : List Nat} {x : List Int}, inside s x = true ↔ InBox s x
  | [], [] => by simp [inside, InBox]
  | [], _ :: _ => by simp [inside, InBox]
  | _ :: _, [] => by simp [inside, InBox]
  | n :: s, i :: x => by
    rw [inside, Bool.and_eq_true, decide_eq_true_eq, inside_iff]
    unfold InBox
    rw [List.forall₂_cons]

theorem mem_pixels : ∀ {s : List Nat} {x : List Int}, x ∈ pixels s ↔ InBox s x
  | [], [] => by simp [pixels, InBox]
  | [], _ :: _ => by simp [pixels, InBox]
  | n :: s, x => by
    simp only [pixels, List.mem_flatMap, List.mem_range, List.mem_map]
    constructor
    · rintro ⟨i, hi, y, hy, rfl⟩
      exact .cons ⟨by omega, by exact_mod_cast hi⟩ (mem_pixels.1 hy)
    · intro h
      cases h with
      | cons h1 h2 =>
        rename_i i y
        exact ⟨i.toNat, by omega, y, mem_pixels.2 h2, by rw [Int.toNat_of_nonneg h1.1]⟩

theorem pixels_nodup (s : List Nat) : (pixels s).Nodup := by
  induction s with
  | nil => simp [pixels]
  | cons n s ih =>
    rw [pixels, List.nodup_flatMap]
    constructor
    · intro i _
      exact ih.map (fun a b h => by simpa using h)
    · apply List.Nodup.pairwise_of_forall_ne List.nodup_range
      intro i _ j _ hij x hx hx'
      rw [List.mem_map] at hx hx'
      obtain ⟨a, _, rfl⟩ := hx
      obtain ⟨b, _, e⟩ := hx'
      simp only [List.cons.injEq, Int.natCast_inj] at e
      exact hij e.1.symm

theorem pixels_length (s : List Nat) : (pixels s).length = s.prod := by
  induction s with
  | nil => rfl
  | cons n s ih => simp [pixels, List.length_flatMap, ih, List.prod_cons]

theorem loops_zero (s : List Nat) : loops (s.map fun n => (0, n)) = pixels s := by
  induction s with
  | nil => rfl
  | cons n s ih => simp [loops, pixels, ih, List.range_eq_range']

/-- The loops from `p` to `p + n` visit the pixels, shifted by `p`. -/
theorem loops_shift : ∀ (s : List Nat) (ps : List Nat), s.length = ps.length →
    loops (List.zipWith (fun n p => (p, p + n)) s ps) =
      (pixels s).map fun x => plus x (ps.map fun (p : Nat) => (p : Int))
  | [], [], _ => by simp [loops, pixels, plus]
  | [], _ :: _, h => by simp at h
  | _ :: _, [], h => by simp at h
  | n :: s, p :: ps, h => by
    have ih := loops_shift s ps (by simpa using h)
    simp only [List.zipWith_cons_cons, loops, pixels, ih, List.map_flatMap, List.map_map]
    rw [Nat.add_sub_cancel_left, List.range'_eq_map_range, List.flatMap_map]
    congr 1
    funext i
    apply List.map_congr_left
    intro x _
    simp [plus, add_comm]

end Verif
