import Verif.Props.Cluster
import Verif.Lemmas.Path32

/-!
# Points outside the image without assertions (C57)

Wherever the first illegal point is in the list, the points before it are labelled and then memory is accessed out of
bounds.
-/

namespace Verif.Cluster

open Verif Outcome Kernel

theorem bind_eq_ok {α β : Type} {o : Outcome α} {f : α → Outcome β} {b : β} (h : o.bind f = ok b) :
    ∃ a, o = ok a ∧ f a = ok b := by
  cases o with
  | ok a => exact ⟨a, rfl, h⟩
  | throws => cases h
  | ub => cases h
  | diverge => cases h

theorem write_size {v w : Vec Int} {i a : Int} (h : v.write i a = ok w) : w.size = v.size := by
  unfold Vec.write at h
  split at h
  · cases h; rfl
  · cases h

theorem mergeLoop_label (target : Int) : ∀ (l : List Int) (s s' : State), mergeLoop target l s = ok s' →
    s'.label = s.label
  | [], s, s', h => by cases h; rfl
  | b :: l, s, s', h => by
    obtain ⟨s1, h1, h2⟩ := bind_eq_ok h
    rw [mergeLoop_label target l s1 s' h2]
    unfold mergeDetail at h1
    obtain ⟨_, -, h1⟩ := bind_eq_ok h1
    obtain ⟨_, -, h1⟩ := bind_eq_ok h1
    obtain ⟨_, -, h1⟩ := bind_eq_ok h1
    obtain ⟨_, -, h1⟩ := bind_eq_ok h1
    obtain ⟨_, -, h1⟩ := bind_eq_ok h1
    obtain ⟨_, -, h1⟩ := bind_eq_ok h1
    cases h1
    rfl

theorem labelImpl_size {s s' : State} {p : Int} (h : labelImpl s p = ok s') : s'.label.size = s.label.size := by
  obtain ⟨c, -, h⟩ := bind_eq_ok h
  split at h
  · obtain ⟨l, h1, h⟩ := bind_eq_ok h
    cases h
    exact write_size h1
  · obtain ⟨l, h1, h⟩ := bind_eq_ok h
    cases h
    exact write_size h1
  · split at h
    · cases h
    · obtain ⟨l, h1, h⟩ := bind_eq_ok h
      cases h
      exact write_size h1
    · obtain ⟨s1, h0, h⟩ := bind_eq_ok h
      obtain ⟨l, h1, h⟩ := bind_eq_ok h
      cases h
      rw [← mergeLoop_label _ _ _ _ h0]
      exact write_size h1

theorem addPoint_size {s s' : State} {p : Int} (h : addPoint s p = ok s') : s'.label.size = s.label.size := by
  obtain ⟨l, -, h⟩ := bind_eq_ok h
  split at h
  · cases h; rfl
  · exact labelImpl_size h

theorem points_size : ∀ (l : List Int) (s s' : State), forM l s addPoint = ok s' → s'.label.size = s.label.size
  | [], s, s', h => by cases h; rfl
  | p :: l, s, s', h => by
    obtain ⟨s1, h1, h2⟩ := bind_eq_ok h
    rw [points_size l s1 s' h2, addPoint_size h1]

/-- The inner loop over a longer list: the same if it was left, else it goes on. -/
theorem seqInner_append {nl : Int} {nm : Nat} {lab : Int} (m : List Int) : ∀ (l : List Int) (i : Nat) (s s' : State)
    (r : Option Nat), seqInner nl nm lab l i s = ok (s', r) → s'.label.size = s.label.size ∧
      seqInner nl nm lab (l ++ m) i s = match r with
        | some j => ok (s', some j)
        | none => seqInner nl nm lab m (i + l.length) s'
  | [], i, s, s', r, h => by cases h; exact ⟨rfl, rfl⟩
  | p :: l, i, s, s', r, h => by
    unfold seqInner at h
    obtain ⟨v, h1, h2⟩ := bind_eq_ok h
    rw [List.cons_append, seqInner, h1]
    simp only [Outcome.bind]
    split at h2
    · rename_i hc
      cases h2
      rw [if_pos hc]
      exact ⟨rfl, rfl⟩
    · rename_i hc
      rw [if_neg hc]
      split at h2
      · rename_i h0
        rw [if_pos h0]
        obtain ⟨a, b⟩ := seqInner_append m l (i + 1) s s' r h2
        refine ⟨a, ?_⟩
        rw [b, List.length_cons, Nat.add_right_comm, Nat.add_assoc i]
      · rename_i h0
        rw [if_neg h0]
        obtain ⟨s1, h3, h4⟩ := bind_eq_ok h2
        rw [h3]
        simp only
        split at h4
        · rename_i he
          cases h4
          rw [if_pos he]
          exact ⟨labelImpl_size h3, rfl⟩
        · rename_i he
          rw [if_neg he]
          obtain ⟨a, b⟩ := seqInner_append m l (i + 1) s1 s' r h4
          refine ⟨a.trans (labelImpl_size h3), ?_⟩
          rw [b, List.length_cons, Nat.add_right_comm, Nat.add_assoc i]

theorem read_outside {v : Vec Int} {p : Int} (h : ¬ (0 ≤ p ∧ p < v.size)) : v.read p = ub := by
  unfold Vec.read
  rw [if_neg h]

/-- The outer loop over a longer list, with a point outside the image behind the points that are in it. -/
theorem seqOuter_outside {pts post : List Int} {p : Int} (k : Nat) : ∀ (fuel i : Nat) (s : State) (ret : List Nat)
    (x : State × List Nat), seqOuter pts fuel i s ret = ok x → ¬ (0 ≤ p ∧ p < s.label.size) →
      seqOuter (pts ++ p :: post) (fuel + k) i s ret = ub
  | 0, i, s, ret, x, h, _ => by cases h
  | fuel + 1, i, s, ret, x, h, hp => by
    rw [Nat.add_right_comm]
    unfold seqOuter at h ⊢
    cases e : pts[i]? with
    | none => rw [e] at h; cases h
    | some q =>
      have hi : i < pts.length := (List.getElem?_eq_some_iff.1 e).1
      rw [e] at h
      rw [List.getElem?_append_left hi, e, List.drop_append_of_le_length (by omega)]
      simp only at h ⊢
      obtain ⟨lab, h1, h2⟩ := bind_eq_ok h
      obtain ⟨⟨s', r⟩, h3, h4⟩ := bind_eq_ok h2
      obtain ⟨a, b⟩ := seqInner_append (p :: post) _ _ _ _ _ h3
      rw [h1]
      simp only [Outcome.bind]
      rw [b]
      cases r with
      | none =>
        simp only
        unfold seqInner
        rw [read_outside (by rw [a]; exact hp)]
        rfl
      | some j =>
        simp only at h4 ⊢
        exact seqOuter_outside k fuel j s' _ x h4 (by rw [a]; exact hp)

/-- The first element that is not `P`. -/
theorem first_bad {α : Type} {P : α → Prop} [DecidablePred P] : ∀ {l : List α}, (∃ x ∈ l, ¬ P x) →
    ∃ pre x post, l = pre ++ x :: post ∧ (∀ y ∈ pre, P y) ∧ ¬ P x
  | [], h => by obtain ⟨x, hx, -⟩ := h; cases hx
  | a :: l, h => by
    by_cases ha : P a
    · obtain ⟨x, hx, hn⟩ := h
      rcases List.mem_cons.1 hx with rfl | hx
      · exact absurd ha hn
      · obtain ⟨pre, y, post, rfl, h1, h2⟩ := first_bad (P := P) ⟨x, hx, hn⟩
        refine ⟨a :: pre, y, post, rfl, fun z hz => ?_, h2⟩
        rcases List.mem_cons.1 hz with rfl | hz
        · exact ha
        · exact h1 z hz
    · exact ⟨[], a, l, rfl, (fun y hy => by cases hy), ha⟩

end Verif.Cluster

namespace Verif.Props

open Verif Outcome Spec Cluster

variable {periodic : Bool} {shape : List Nat} {offsets : List (List Int)} {calls : List Call}

/-- Without assertions, after every valid history: a point outside the image, wherever it is in the list, is an
out-of-bounds access, and so is an empty sequence. -/
theorem C57_release_any {points : List Int} {s : State} {rets : List (List Nat)}
    (hv : ValidConfig periodic shape offsets) (hc : ∀ c ∈ calls, c.Valid shape.prod)
    (hr : run false (init periodic shape offsets) calls = ok (s, rets)) :
    ((∃ p ∈ points, ¬ (0 ≤ p ∧ p < shape.prod)) →
      addPoints false s points = ub ∧ addSequence false s points = ub) ∧
    addSequence false s [] = ub := by
  obtain ⟨s', rets', n, e, g⟩ := run_ok false hv calls (good_init hv) hc
  rw [hr] at e
  cases e
  have hmid := g.rest.mid
  have hsz' : prodShape s.shape = shape.prod := g.size
  have hsz : s.label.size = shape.prod := by rw [hmid.wf.lsz, hsz']
  refine ⟨fun h => ?_, rfl⟩
  obtain ⟨pre, p, post, rfl, h1, h2⟩ := first_bad (P := fun p : Int => 0 ≤ p ∧ p < shape.prod) h
  obtain ⟨pts, rfl⟩ : ∃ pts : List Nat, pre = pts.map fun p : Nat => (p : Int) :=
    ⟨pre.map Int.toNat, by
      rw [List.map_map]
      refine (List.map_id pre).symm.trans (List.map_congr_left fun a ha => ?_)
      exact (Int.toNat_of_nonneg (h1 a ha).1).symm⟩
  have hpts : ∀ q ∈ pts, q < prodShape s.shape := fun q hq => by
    rw [hsz']
    exact_mod_cast (h1 q (List.mem_map_of_mem hq)).2
  constructor
  · obtain ⟨s1, e1, -, -⟩ := addPointsLoop_ok pts hmid hpts
    have := points_size _ _ _ e1
    unfold addPoints
    rw [if_neg (by simp), Verif.Path.forM_append, e1]
    simp only [Outcome.bind, forM, addPoint]
    rw [read_outside (by rw [this, hsz]; exact h2)]
  · unfold addSequence
    rw [if_neg (by simp), if_neg (by simp)]
    by_cases hne : pts = []
    · subst hne
      rw [List.map_nil, List.nil_append, seqOuter]
      simp only [List.getElem?_cons_zero]
      rw [read_outside (by rw [hsz]; exact h2)]
      rfl
    · obtain ⟨s1, new, e1, -⟩ := addSequence_ok false hmid hne hpts
      unfold addSequence at e1
      rw [if_neg (by simp), if_neg (by simp)] at e1
      obtain ⟨x, e2, -⟩ := bind_eq_ok e1
      have := seqOuter_outside (post := post) (p := p) (2 * (post.length + 1)) _ _ _ _ _ e2 (by rw [hsz]; exact h2)
      rw [show 2 * ((pts.map fun p : Nat => (p : Int)) ++ p :: post).length + 2 =
        2 * (pts.map fun p : Nat => (p : Int)).length + 2 + 2 * (post.length + 1) by
          simp only [List.length_append, List.length_cons]; omega, this]
      rfl

/-- 12 is the first index outside an image of shape (3, 4). -/
example : ∃ s rets, run false (init true [3, 4] exOffsets) exCalls = ok (s, rets) ∧
    addSequence false s [3, 5, 12, 1] = ub := by
  obtain ⟨s, rets, h, -⟩ := C09_safe false exConfig exCalls_valid
  exact ⟨s, rets, h, ((C57_release_any exConfig exCalls_valid h).1 ⟨12, by decide⟩).2⟩

end Verif.Props
