import Verif.Lemmas.Average

/-! # Shifting a periodic image -/

set_option linter.unusedSectionVars false

namespace Verif.Ens

open Verif Outcome Spec Cluster Nd

variable {K : Type} [Field K] [LinearOrder K] [IsStrictOrderedRing K]

/-- `-d` -/
def neg (d : List Int) : List Int := d.map fun a => -a

theorem shift_shift : ∀ {s : List Nat} {x d e : List Int}, x.length = s.length → d.length = s.length →
    e.length = s.length → wrap s (move (wrap s (move x d)) e) = wrap s (move x (move d e))
  | [], [], [], [], _, _, _ => rfl
  | n :: s, a :: x, b :: d, c :: e, h1, h2, h3 => by
    have ih := shift_shift (s := s) (x := x) (d := d) (e := e) (by simpa using h1) (by simpa using h2)
      (by simpa using h3)
    simp only [wrap, move, List.zipWith_cons_cons, List.cons.injEq] at ih ⊢
    exact ⟨by rw [Int.emod_add_emod, add_assoc], ih⟩

theorem move_comm : ∀ {d e : List Int}, move d e = move e d
  | [], [] => rfl
  | [], _ :: _ => rfl
  | _ :: _, [] => rfl
  | a :: d, b :: e => by
    have ih := move_comm (d := d) (e := e)
    simp only [move, List.zipWith_cons_cons, List.cons.injEq] at ih ⊢
    exact ⟨add_comm _ _, ih⟩

theorem move_neg : ∀ {x d : List Int}, d.length = x.length → move x (move d (neg d)) = x
  | [], [], _ => rfl
  | a :: x, b :: d, h => by
    have ih := move_neg (x := x) (d := d) (by simpa using h)
    simp only [move, neg, List.map_cons, List.zipWith_cons_cons, List.cons.injEq] at ih ⊢
    exact ⟨by omega, ih⟩

theorem neg_length (d : List Int) : (neg d).length = d.length := by simp [neg]

theorem shift_neg {s : List Nat} {x d : List Int} (hx : InBox s x) (hd : d.length = s.length) :
    wrap s (move (wrap s (move x d)) (neg d)) = x := by
  have e := inbox_length hx
  rw [shift_shift e hd (by rw [neg_length, hd]), move_neg (by omega), wrap_of_inbox hx]

theorem shift_inbox {s : List Nat} {x d : List Int} (hx : InBox s x) (hd : d.length = s.length) :
    InBox s (wrap s (move x d)) := by
  have e := inbox_length hx
  exact wrap_inbox (by rw [move_length (by omega), e]) (inbox_pos hx)

/-- A shift permutes the pixels. -/
theorem shift_perm {s : List Nat} {d : List Int} (hd : d.length = s.length) :
    ((pixels s).map fun x => wrap s (move x d)).Perm (pixels s) := by
  have hn : ((pixels s).map fun x => wrap s (move x d)).Nodup := by
    refine List.Nodup.map_on ?_ (pixels_nodup s)
    intro x hx y hy e
    have := congrArg (fun z => wrap s (move z (neg d))) e
    simpa only [shift_neg (mem_pixels.1 hx) hd, shift_neg (mem_pixels.1 hy) hd] using this
  refine (List.perm_ext_iff_of_nodup hn (pixels_nodup s)).2 fun y => ?_
  rw [List.mem_map]
  constructor
  · rintro ⟨x, hx, rfl⟩
    exact mem_pixels.2 (shift_inbox (mem_pixels.1 hx) hd)
  · intro hy
    refine ⟨wrap s (move y (neg d)),
      mem_pixels.2 (shift_inbox (mem_pixels.1 hy) (by rw [neg_length, hd])), ?_⟩
    have e := inbox_length (mem_pixels.1 hy)
    rw [shift_shift e (by rw [neg_length, hd]) hd, move_comm (d := neg d), move_neg (by omega),
      wrap_of_inbox (mem_pixels.1 hy)]

theorem sum_shift {s : List Nat} {d : List Int} (hd : d.length = s.length) (φ : List Int → K) :
    ((pixels s).map fun x => φ (wrap s (move x d))).sum = ((pixels s).map φ).sum := by
  have := (shift_perm hd).map φ
  rw [List.map_map] at this
  exact this.sum_eq

end Verif.Ens
