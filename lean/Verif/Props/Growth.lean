import Verif.Props.Cluster
import Verif.Spec.Growth
import Mathlib.Algebra.BigOperators.Group.Finset.Basic
import Mathlib.Algebra.Order.BigOperators.Group.Finset

/-!
# One more pixel (C98)
-/

namespace Verif.Props

open Verif Outcome Spec Cluster

variable {periodic dbg : Bool} {shape : List Nat} {offsets : List (List Int)} {calls : List Call} {s : State}
  {rets : List (List Nat)}

/-- Visits of one new pixel, and of pixels that were visited before. -/
theorem visitAll_one {p : Nat} : ∀ {pts hist : List Nat}, (∀ q ∈ pts, q ∈ hist ∨ q = p) →
    visitAll hist pts = if p ∈ hist then hist else if p ∈ pts then hist ++ [p] else hist
  | [], hist, _ => by simp [visitAll]
  | a :: pts, hist, h => by
    unfold visitAll
    have ha := h a (by simp)
    by_cases hm : a ∈ hist
    · rw [if_pos hm, visitAll_one fun q hq => h q (List.mem_cons_of_mem _ hq)]
      by_cases hp : p ∈ hist
      · rw [if_pos hp, if_pos hp]
      · rw [if_neg hp, if_neg hp]
        have : p ≠ a := fun h => hp (h ▸ hm)
        simp [this]
    · have e : a = p := by tauto
      subst e
      rw [if_neg hm, visitAll_one fun q hq => by
        rcases h q (List.mem_cons_of_mem _ hq) with h | h
        · exact Or.inl (by simp [h])
        · exact Or.inr h]
      simp [hm]

/-- Joined with one more pixel. -/
theorem joined_insert {adj : Nat → Nat → Prop} (symm : ∀ {a b}, adj a b → adj b a) {S : Nat → Prop} {p a b : Nat}
    (ha : S a) (h : Joined adj (fun r => S r ∨ r = p) a b) :
    (b = p ∧ ∃ q, adj p q ∧ Joined adj S q a) ∨
      (Joined adj S a b ∨ ((∃ q, adj p q ∧ Joined adj S q a) ∧ ∃ q, adj p q ∧ Joined adj S q b)) := by
  induction h with
  | refl _ => exact Or.inr (Or.inl (.refl ha))
  | @step b c h1 h2 h3 ih =>
    rcases h3 with hc | rfl
    · rcases ih with ⟨rfl, h⟩ | h | ⟨h, q, hq, hj⟩
      · exact Or.inr (Or.inr ⟨h, c, h2, .refl hc⟩)
      · exact Or.inr (Or.inl (.step h h2 hc))
      · exact Or.inr (Or.inr ⟨h, q, hq, .step hj h2 hc⟩)
    · rcases ih with ⟨_, h⟩ | h | ⟨h, -⟩
      · exact Or.inl ⟨rfl, h⟩
      · exact Or.inl ⟨rfl, b, symm h2, Naive.Joined.symm (fun _ _ _ _ _ h => symm h) h⟩
      · exact Or.inl ⟨rfl, h⟩

/-! ### C98 -/

/-- After every history, a call that adds the one new pixel `p` merges the clusters that `p` touches, and no
others, with `p`: they all get the lowest of their labels (a new label, higher than all, if there are none); the
number of clusters changes by one less the number of clusters touched; the size of the cluster of `p` is one more
than the sum of the sizes of the clusters touched; all other labels stay as they are. -/
theorem C98_pixel (hv : ValidConfig periodic shape offsets) (hc : ∀ c ∈ calls, c.Valid shape.prod)
    (h : run dbg (init periodic shape offsets) calls = ok (s, rets)) {c : Call} (hcv : c.Valid shape.prod) {p : Nat}
    (hp : p ∉ added [] calls) (hpc : p ∈ c.visits) (hvis : ∀ q ∈ c.visits, q ∈ added [] calls ∨ q = p) :
    ∃ s' ret T, stepCall dbg s c = ok (s', ret) ∧
      T = contacts shape.prod (labelAt s) (Adj periodic shape offsets) p ∧ labelAt s' p ≠ 0 ∧
      (∀ q < shape.prod, q ≠ p →
        labelAt s' q = if labelAt s q ∈ T then labelAt s' p else labelAt s q) ∧
      (T = ∅ → ∀ q < shape.prod, labelAt s q < labelAt s' p) ∧
      (T ≠ ∅ → labelAt s' p ∈ T ∧ ∀ l ∈ T, labelAt s' p ≤ l) ∧
      (names shape.prod (labelAt s')).card + T.card = (names shape.prod (labelAt s)).card + 1 ∧
      clusterSize shape.prod (labelAt s') (labelAt s' p) =
        1 + ∑ l ∈ T, clusterSize shape.prod (labelAt s) l := by
  classical
  have hadd : c ≠ .prune ∧ c ≠ .reset := by
    constructor <;> (rintro rfl; simp [Call.visits] at hpc)
  obtain ⟨s', ret, e, hst⟩ := C06_stable hv hc h hcv hadd
  have hc' : ∀ a ∈ calls ++ [c], a.Valid shape.prod := by
    intro a ha
    rcases List.mem_append.1 ha with h1 | h1
    · exact hc a h1
    · rw [List.mem_singleton.1 h1]
      exact hcv
  have h' : run dbg (init periodic shape offsets) (calls ++ [c]) = ok (s', rets ++ [ret]) := by
    rw [run_append, h]
    simp [Outcome.bind, e]
  have hadded : added [] (calls ++ [c]) = added [] calls ++ [p] := by
    rw [added_append, added_cons]
    have : addedStep (added [] calls) c = visitAll (added [] calls) c.visits := by
      cases c <;> first | rfl | exact absurd rfl hadd.1 | exact absurd rfl hadd.2
    rw [this, visitAll_one hvis, if_neg hp, if_pos hpc]
    rfl
  have hS : ∀ q, q ∈ added [] (calls ++ [c]) ↔ q ∈ added [] calls ∨ q = p := by
    intro q
    rw [hadded]
    simp
  have hlt := added_lt hv hc
  have hlt' := added_lt hv hc'
  have hpl : p < shape.prod := hlt' p ((hS p).2 (Or.inr rfl))
  have hbg : ∀ q < shape.prod, labelAt s q = 0 ↔ q ∉ added [] calls := fun q hq => C01_background hv hc h hq
  have hbg' : ∀ q < shape.prod, labelAt s' q = 0 ↔ q ∉ added [] (calls ++ [c]) :=
    fun q hq => C01_background hv hc' h' hq
  have hp0 : labelAt s' p ≠ 0 := fun h0 => (hbg' p hpl).1 h0 ((hS p).2 (Or.inr rfl))
  have hps : labelAt s p = 0 := (hbg p hpl).2 hp
  set T := contacts shape.prod (labelAt s) (Adj periodic shape offsets) p with hT
  have symm : ∀ {a b}, Adj periodic shape offsets a b → Adj periodic shape offsets b a := fun h => adj_symm hv h
  have eqS : (fun q => q ∈ added [] (calls ++ [c])) = fun q => q ∈ added [] calls ∨ q = p :=
    funext fun q => propext (hS q)
  -- the labels touched
  have memT : ∀ q ∈ added [] calls, labelAt s q ∈ T ↔
      ∃ r, Adj periodic shape offsets p r ∧ Joined (Adj periodic shape offsets) (· ∈ added [] calls) r q := by
    intro q hq
    rw [hT, contacts, Finset.mem_erase, Finset.mem_image]
    constructor
    · rintro ⟨h0, r, hr, hl⟩
      rw [Finset.mem_filter, Finset.mem_range] at hr
      have hra : r ∈ added [] calls := by
        by_contra hn
        rw [(hbg r hr.1).2 hn] at hl
        exact h0 hl.symm
      exact ⟨r, hr.2, (C02_connected hv hc h hra hq).1 hl⟩
    · rintro ⟨r, h1, h2⟩
      have hra := Naive.Joined.mem_left h2
      exact ⟨fun h0 => (hbg q (hlt q hq)).1 h0 hq, r,
        Finset.mem_filter.2 ⟨Finset.mem_range.2 (hlt r hra), h1⟩, (C02_connected hv hc h hra hq).2 h2⟩
  have T0 : (0 : Int) ∉ T := by
    rw [hT, contacts]
    simp
  have exT : ∀ l ∈ T, ∃ q ∈ added [] calls, labelAt s q = l := by
    intro l hl
    rw [hT, contacts, Finset.mem_erase, Finset.mem_image] at hl
    obtain ⟨h0, r, hr, rfl⟩ := hl
    rw [Finset.mem_filter, Finset.mem_range] at hr
    refine ⟨r, ?_, rfl⟩
    by_contra hn
    exact h0 ((hbg r hr.1).2 hn)
  -- which pixels join
  have joins : ∀ q ∈ added [] calls, labelAt s' q = labelAt s' p ↔ labelAt s q ∈ T := by
    intro q hq
    rw [C02_connected hv hc' h' ((hS q).2 (Or.inl hq)) ((hS p).2 (Or.inr rfl)), memT q hq, eqS]
    constructor
    · intro hj
      rcases joined_insert symm hq hj with ⟨-, h1⟩ | h1 | ⟨h1, -⟩
      · exact h1
      · exact absurd (Naive.Joined.mem_right h1) hp
      · exact h1
    · rintro ⟨r, h1, h2⟩
      exact .step (Naive.Joined.mono (fun _ => Or.inl) (Naive.Joined.symm (fun _ _ _ _ _ h => symm h) h2)) (symm h1)
        (Or.inr rfl)
  have both : ∀ q ∈ added [] calls, ∀ r ∈ added [] calls, labelAt s' q = labelAt s' r →
      labelAt s q = labelAt s r ∨ (labelAt s q ∈ T ∧ labelAt s r ∈ T) := by
    intro q hq r hr hl
    rw [C02_connected hv hc' h' ((hS q).2 (Or.inl hq)) ((hS r).2 (Or.inl hr)), eqS] at hl
    rcases joined_insert symm hq hl with ⟨h1, -⟩ | h1 | ⟨h1, h2⟩
    · exact absurd (h1 ▸ hr) hp
    · exact Or.inl ((C02_connected hv hc h hq hr).2 h1)
    · exact Or.inr ⟨(memT q hq).2 h1, (memT r hr).2 h2⟩
  have keep : ∀ q ∈ added [] calls, labelAt s q ∉ T → labelAt s' q = labelAt s q := by
    intro q hq hn
    rcases hst q hq with h1 | ⟨h1, r, hr, h2, h3, -⟩
    · exact h1
    · rcases both q hq r hr h3.symm with h4 | h4
      · rw [h4, h2]
      · exact absurd h4.1 hn
  have low : T ≠ ∅ → labelAt s' p ∈ T ∧ ∀ l ∈ T, labelAt s' p ≤ l := by
    intro hne
    obtain ⟨l, hl⟩ := Finset.nonempty_iff_ne_empty.2 hne
    constructor
    · obtain ⟨q, hq, rfl⟩ := exT l hl
      have hj := (joins q hq).2 hl
      rcases hst q hq with h1 | ⟨h1, r, hr, h2, h3, -⟩
      · rw [← hj, h1]
        exact hl
      · rw [← hj, ← h2]
        exact (joins r hr).1 (h3.trans hj)
    · intro l hl
      obtain ⟨q, hq, rfl⟩ := exT l hl
      have hj := (joins q hq).2 hl
      rw [← hj]
      rcases hst q hq with h1 | ⟨h1, -⟩
      · exact h1.le
      · exact h1.le
  have values : ∀ q < shape.prod, q ≠ p →
      labelAt s' q = if labelAt s q ∈ T then labelAt s' p else labelAt s q := by
    intro q hq hqp
    by_cases ha : q ∈ added [] calls
    · split
      · next ht => exact (joins q ha).2 ht
      · next ht => exact keep q ha ht
    · have h0 := (hbg q hq).2 ha
      rw [h0, if_neg T0]
      exact (hbg' q hq).2 fun hn => by
        rcases (hS q).1 hn with h1 | h1
        · exact ha h1
        · exact hqp h1
  have high : T = ∅ → ∀ q < shape.prod, labelAt s q < labelAt s' p := by
    intro hemp q hq
    by_cases ha : q ∈ added [] calls
    · rw [← keep q ha (by simp [hemp]), C05_age hv hc' h' ((hS q).2 (Or.inl ha)) ((hS p).2 (Or.inr rfl))]
      refine ⟨q, .refl ((hS q).2 (Or.inl ha)), fun o ho => ?_⟩
      have hom := Naive.Joined.mem_right ho
      rcases (hS o).1 hom with h1 | rfl
      · have := (C02_connected hv hc' h' ((hS p).2 (Or.inr rfl)) hom).2 ho
        exact absurd ((joins o h1).1 this.symm) (by simp [hemp])
      · unfold Before
        rw [hadded, List.idxOf_append_of_mem ha, List.idxOf_append_of_notMem hp]
        have := List.idxOf_lt_length_of_mem ha
        omega
    · rw [(hbg q hq).2 ha]
      obtain ⟨s2, r2, e2, -, h2⟩ := C09_safe dbg hv hc'
      rw [h'] at e2
      cases e2
      have := (h2 p hpl).1
      omega
  have fresh : labelAt s' p ∈ names shape.prod (labelAt s) → labelAt s' p ∈ T := by
    intro hm
    by_cases hne : T = ∅
    · rw [names, Finset.mem_erase, Finset.mem_image] at hm
      obtain ⟨-, q, hq, hl⟩ := hm
      have := high hne q (Finset.mem_range.1 hq)
      omega
    · exact (low hne).1
  have sub : T ⊆ names shape.prod (labelAt s) := by
    intro l hl
    obtain ⟨q, hq, rfl⟩ := exT l hl
    rw [names, Finset.mem_erase, Finset.mem_image]
    exact ⟨fun h0 => T0 (h0 ▸ hl), q, Finset.mem_range.2 (hlt q hq), rfl⟩
  refine ⟨s', ret, T, e, rfl, hp0, values, high, low, ?_, ?_⟩
  · have : names shape.prod (labelAt s') = insert (labelAt s' p) (names shape.prod (labelAt s) \ T) := by
      ext l
      rw [names, Finset.mem_erase, Finset.mem_image, Finset.mem_insert, Finset.mem_sdiff, names, Finset.mem_erase,
        Finset.mem_image]
      constructor
      · rintro ⟨h0, q, hq, rfl⟩
        by_cases hqp : q = p
        · exact Or.inl (by rw [hqp])
        · have hv := values q (Finset.mem_range.1 hq) hqp
          split at hv
          · exact Or.inl hv
          · next ht => exact Or.inr ⟨⟨h0, q, hq, hv.symm⟩, by rw [hv]; exact ht⟩
      · rintro (rfl | ⟨⟨h0, q, hq, rfl⟩, ht⟩)
        · exact ⟨hp0, p, Finset.mem_range.2 hpl, rfl⟩
        · refine ⟨h0, q, hq, ?_⟩
          rw [values q (Finset.mem_range.1 hq) (by rintro rfl; exact h0 hps), if_neg ht]
    rw [this, Finset.card_insert_of_notMem, Finset.card_sdiff_of_subset sub]
    · have := Finset.card_le_card sub
      omega
    · rw [Finset.mem_sdiff]
      exact fun hm => hm.2 (fresh hm.1)
  · have : (Finset.range shape.prod).filter (fun q => labelAt s' q = labelAt s' p) =
        insert p (T.biUnion fun l => (Finset.range shape.prod).filter fun q => labelAt s q = l) := by
      ext q
      simp only [Finset.mem_filter, Finset.mem_range, Finset.mem_insert, Finset.mem_biUnion]
      constructor
      · rintro ⟨hq, hl⟩
        by_cases hqp : q = p
        · exact Or.inl hqp
        · right
          have hv := values q hq hqp
          split at hv
          · next ht => exact ⟨_, ht, hq, rfl⟩
          · next ht =>
            refine absurd (fresh ?_) (by rw [← hl, hv]; exact ht)
            rw [names, Finset.mem_erase, Finset.mem_image]
            exact ⟨hp0, q, Finset.mem_range.2 hq, by rw [← hl, hv]⟩
      · rintro (rfl | ⟨l, hl, hq, rfl⟩)
        · exact ⟨hpl, rfl⟩
        · exact ⟨hq, by rw [values q hq (by rintro rfl; rw [hps] at hl; exact T0 hl), if_pos hl]⟩
    unfold clusterSize
    rw [this, Finset.card_insert_of_notMem, Finset.card_biUnion]
    · omega
    · intro a _ b _ hab
      rw [Function.onFun, Finset.disjoint_filter]
      intro q _ h1 h2
      exact hab (h1.symm.trans h2)
    · simp only [Finset.mem_biUnion, Finset.mem_filter, not_exists, not_and]
      rintro l hl - h1
      rw [hps] at h1
      exact T0 (h1 ▸ hl)

/-- After every history the sizes of the clusters add up to the number of pixels added. -/
theorem C98_total (hv : ValidConfig periodic shape offsets) (hc : ∀ c ∈ calls, c.Valid shape.prod)
    (h : run dbg (init periodic shape offsets) calls = ok (s, rets)) :
    ∑ l ∈ names shape.prod (labelAt s), clusterSize shape.prod (labelAt s) l = (added [] calls).length := by
  classical
  obtain ⟨n, g⟩ := run_good hv hc h
  have hlt := added_lt hv hc
  rw [← List.toFinset_card_of_nodup g.inv.nodup]
  unfold clusterSize
  rw [← Finset.card_biUnion]
  · congr 1
    ext q
    simp only [Finset.mem_biUnion, Finset.mem_filter, Finset.mem_range, List.mem_toFinset, names, Finset.mem_erase,
      Finset.mem_image]
    constructor
    · rintro ⟨l, ⟨h0, -⟩, hq, rfl⟩
      by_contra hn
      exact h0 ((C01_background hv hc h hq).2 hn)
    · intro hq
      have hql := hlt q hq
      exact ⟨_, ⟨fun h0 => (C01_background hv hc h hql).1 h0 hq, q, hql, rfl⟩, hql, rfl⟩
  · intro a _ b _ hab
    rw [Function.onFun, Finset.disjoint_filter]
    intro q _ h1 h2
    exact hab (h1.symm.trans h2)

/-- Pixel 6 of an image of shape (3, 4) touches the clusters of the pixels 5 and 7, and not that of pixel 0: of three
clusters of sizes 1 two are left, of sizes 3 and 1. -/
example : (∀ c ∈ [Call.addPoints [5, 7, 0]], c.Valid [3, 4].prod) ∧ (6 : Nat) ∉ added [] [Call.addPoints [5, 7, 0]] ∧
    (6 : Nat) ∈ (Call.addSequence [5, 6]).visits ∧
    (∀ q ∈ (Call.addSequence [5, 6]).visits, q ∈ added [] [Call.addPoints [5, 7, 0]] ∨ q = 6) ∧
    (Call.addSequence [5, 6]).Valid [3, 4].prod ∧
    (run true (init true [3, 4] exOffsets) [.addPoints [5, 7, 0]]).get?.map
      (fun r => (names 12 (labelAt r.1), clusterSize 12 (labelAt r.1) 1)) = some ({1, 2, 3}, 1) ∧
    (run true (init true [3, 4] exOffsets) [.addPoints [5, 7, 0], .addSequence [5, 6]]).get?.map
      (fun r => (names 12 (labelAt r.1), clusterSize 12 (labelAt r.1) 1)) = some ({1, 3}, 3) := by
  refine ⟨?_, by decide, by decide, by decide, ?_, by decide +kernel, by decide +kernel⟩
  · simp [Call.Valid]
  · simp [Call.Valid]

end Verif.Props
