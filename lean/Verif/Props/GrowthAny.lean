import Verif.Props.Growth
import Verif.Props.ClusterAnyCalls

/-!
# One more pixel, for every shape and every kernel (C98)

As `C98_pixel` and `C98_total`, without the restriction to point-symmetric kernels and to shapes on which the labeller
looks at the pixel at the offset: the clusters that are merged are those of the pixels that the new pixel is compared
with (`Sees`).
-/

namespace Verif.Props

open Verif Outcome Spec Cluster

variable {periodic dbg : Bool} {shape : List Nat} {offsets : List (List Int)} {calls : List Call} {s : State}
  {rets : List (List Nat)}

/-- Names and sizes after the labels `T` are merged with the new pixel `p`. -/
theorem merge_counts {N p : Nat} {l l' : Nat → Int} {T : Finset Int} (hpl : p < N) (hp0 : l' p ≠ 0) (hps : l p = 0)
    (T0 : (0 : Int) ∉ T) (values : ∀ q < N, q ≠ p → l' q = if l q ∈ T then l' p else l q)
    (fresh : l' p ∈ names N l → l' p ∈ T) (sub : T ⊆ names N l) :
    (names N l').card + T.card = (names N l).card + 1 ∧
      clusterSize N l' (l' p) = 1 + ∑ a ∈ T, clusterSize N l a := by
  classical
  constructor
  · have : names N l' = insert (l' p) (names N l \ T) := by
      ext a
      rw [names, Finset.mem_erase, Finset.mem_image, Finset.mem_insert, Finset.mem_sdiff, names, Finset.mem_erase,
        Finset.mem_image]
      constructor
      · rintro ⟨h0, q, hq, rfl⟩
        by_cases hqp : q = p
        · exact Or.inl (by rw [hqp])
        · have hv := values q (Finset.mem_range.1 hq) hqp
          split at hv
          · exact Or.inl hv
          · next ht => exact Or.inr ⟨⟨h0, q, hq, hv.symm⟩, by rw [hv]; exact ht⟩
      · rintro (rfl | ⟨⟨h0, q, hq, rfl⟩, ht⟩)
        · exact ⟨hp0, p, Finset.mem_range.2 hpl, rfl⟩
        · refine ⟨h0, q, hq, ?_⟩
          rw [values q (Finset.mem_range.1 hq) (by rintro rfl; exact h0 hps), if_neg ht]
    rw [this, Finset.card_insert_of_notMem, Finset.card_sdiff_of_subset sub]
    · have := Finset.card_le_card sub
      omega
    · rw [Finset.mem_sdiff]
      exact fun hm => hm.2 (fresh hm.1)
  · have : (Finset.range N).filter (fun q => l' q = l' p) =
        insert p (T.biUnion fun a => (Finset.range N).filter fun q => l q = a) := by
      ext q
      simp only [Finset.mem_filter, Finset.mem_range, Finset.mem_insert, Finset.mem_biUnion]
      constructor
      · rintro ⟨hq, hl⟩
        by_cases hqp : q = p
        · exact Or.inl hqp
        · right
          have hv := values q hq hqp
          split at hv
          · next ht => exact ⟨_, ht, hq, rfl⟩
          · next ht =>
            refine absurd (fresh ?_) (by rw [← hl, hv]; exact ht)
            rw [names, Finset.mem_erase, Finset.mem_image]
            exact ⟨hp0, q, Finset.mem_range.2 hq, by rw [← hl, hv]⟩
      · rintro (rfl | ⟨a, hl, hq, rfl⟩)
        · exact ⟨hpl, rfl⟩
        · exact ⟨hq, by rw [values q hq (by rintro rfl; rw [hps] at hl; exact T0 hl), if_pos hl]⟩
    unfold clusterSize
    rw [this, Finset.card_insert_of_notMem, Finset.card_biUnion]
    · omega
    · intro a _ b _ hab
      rw [Function.onFun, Finset.disjoint_filter]
      intro q _ h1 h2
      exact hab (h1.symm.trans h2)
    · simp only [Finset.mem_biUnion, Finset.mem_filter, not_exists, not_and]
      rintro a hl - h1
      rw [hps] at h1
      exact T0 (h1 ▸ hl)

theorem naive_add_labelled {nb : Nat → List Nat} {n : Naive} {p : Nat} (h : n.lab p ≠ 0) : n.add nb p = n := by
  unfold Naive.add
  rw [if_pos h]

theorem naive_add_nonzero {nb : Nat → List Nat} {n : Naive} (hn : 0 < n.new) (hl : ∀ q, 0 ≤ n.lab q) (p : Nat) :
    (n.add nb p).lab p ≠ 0 := by
  unfold Naive.add
  split
  · assumption
  · have hm : ∀ c, c ∈ n.around nb p → c ≠ 0 := fun c h => (Naive.mem_around.1 h).1
    split
    · simp; omega
    · next m rest e => simpa using hm m (by rw [e]; simp)

/-- Visits of one new pixel, and of pixels that have a label. -/
theorem naive_one {nb : Nat → List Nat} {p : Nat} : ∀ {pts : List Nat} {n : Naive}, 0 < n.new → (∀ q, 0 ≤ n.lab q) →
    (∀ q ∈ pts, n.lab q ≠ 0 ∨ q = p) → pts.foldl (Naive.add nb) n = if p ∈ pts then n.add nb p else n
  | [], n, _, _, _ => by simp
  | a :: pts, n, hn, hl, h => by
    rw [List.foldl_cons]
    rcases h a (by simp) with ha | rfl
    · rw [naive_add_labelled ha, naive_one hn hl fun q hq => h q (List.mem_cons_of_mem _ hq)]
      by_cases e : p = a
      · subst e
        rw [naive_add_labelled ha]
        simp
      · simp [e]
    · have hst := Naive.stable_add (nb := nb) n a
      have h1 := naive_add_nonzero (nb := nb) hn hl a
      have key : ∀ (l : List Nat) , (∀ q ∈ l, (n.add nb a).lab q ≠ 0) → l.foldl (Naive.add nb) (n.add nb a) = n.add nb a := by
        intro l hl
        induction l with
        | nil => rfl
        | cons b l ih =>
          rw [List.foldl_cons, naive_add_labelled (hl b (by simp))]
          exact ih fun q hq => hl q (List.mem_cons_of_mem _ hq)
      rw [key pts fun q hq => ?_]
      · simp
      · rcases h q (List.mem_cons_of_mem _ hq) with h2 | rfl
        · exact (hst.le q h2).2
        · exact h1

/-- **C98** for every shape and every kernel: after every history, a call that adds the one new pixel `p` merges the
clusters of the pixels that `p` is compared with, and no others, with `p`: they all get the lowest of their labels (a
new label, higher than all, if there are none); the number of clusters changes by one less the number of these
clusters; the size of the cluster of `p` is one more than the sum of their sizes; all other labels stay as they
are. -/
theorem C98_pixel_any (hv : AnyConfig shape offsets) (hc : ∀ c ∈ calls, c.Valid shape.prod)
    (h : run dbg (init periodic shape offsets) calls = ok (s, rets)) {c : Call} (hcv : c.Valid shape.prod) {p : Nat}
    (hp : p ∉ added [] calls) (hpc : p ∈ c.visits) (hvis : ∀ q ∈ c.visits, q ∈ added [] calls ∨ q = p) :
    ∃ s' ret T, stepCall dbg s c = ok (s', ret) ∧
      T = contacts shape.prod (labelAt s) (Sees periodic shape offsets) p ∧ labelAt s' p ≠ 0 ∧
      (∀ q < shape.prod, q ≠ p →
        labelAt s' q = if labelAt s q ∈ T then labelAt s' p else labelAt s q) ∧
      (T = ∅ → ∀ q < shape.prod, labelAt s q < labelAt s' p) ∧
      (T ≠ ∅ → labelAt s' p ∈ T ∧ ∀ l ∈ T, labelAt s' p ≤ l) ∧
      (names shape.prod (labelAt s')).card + T.card = (names shape.prod (labelAt s)).card + 1 ∧
      clusterSize shape.prod (labelAt s') (labelAt s' p) =
        1 + ∑ l ∈ T, clusterSize shape.prod (labelAt s) l := by
  classical
  obtain ⟨n, g⟩ := runAny_good hv hc h
  obtain ⟨s', ret, e, g'⟩ := stepLink_ok dbg (safeNb_any hv) g hcv
  set nb := nbs periodic shape offsets with hnb
  have hpos := g.inv.range
  have hstep : naiveStep nb shape.prod n c = n.add nb p := by
    have : ∀ pts : List Nat, p ∈ pts → (∀ q ∈ pts, q ∈ added [] calls ∨ q = p) →
        pts.foldl (Naive.add nb) n = n.add nb p := by
      intro pts h1 h2
      rw [naive_one (p := p) (by have := hpos 0; omega) (fun q => (hpos q).1) fun q hq => ?_, if_pos h1]
      rcases h2 q hq with h3 | h3
      · exact Or.inl ((g.inv.labelled q).2 h3)
      · exact Or.inr h3
    cases c with
    | addImage img => exact this _ hpc hvis
    | addPoints pts => exact this _ hpc hvis
    | addSequence pts => exact this _ hpc hvis
    | prune => simp [Call.visits] at hpc
    | reset => simp [Call.visits] at hpc
  rw [hstep] at g'
  have hpl : p < shape.prod := by
    have hin : p ∈ addedStep (added [] calls) c := by
      rw [← g'.inv.labelled]
      exact naive_add_nonzero (by have := hpos 0; omega) (fun q => (hpos q).1) p
    exact g'.inv.lt p hin
  have hps : n.lab p = 0 := by
    by_contra hn
    exact hp ((g.inv.labelled p).1 hn)
  have hlab : ∀ q < shape.prod, labelAt s q = n.lab q := fun q hq => g.label hq
  have hlab' : ∀ q < shape.prod, labelAt s' q = (n.add nb p).lab q := fun q hq => g'.label hq
  set T := contacts shape.prod (labelAt s) (Sees periodic shape offsets) p with hT
  have T0 : (0 : Int) ∉ T := by
    rw [hT, contacts]
    simp
  have memT : ∀ l, l ∈ T ↔ l ∈ n.around nb p := by
    intro l
    rw [hT, contacts, Finset.mem_erase, Finset.mem_image, Naive.mem_around]
    refine and_congr_right fun h0 => ⟨?_, ?_⟩
    · rintro ⟨q, hq, rfl⟩
      rw [Finset.mem_filter, Finset.mem_range] at hq
      rw [hlab q hq.1] at h0 ⊢
      have hne : p ≠ q := fun e => h0 (e ▸ hps)
      exact ⟨q, (mem_nbs_any hv hpl hne).2 hq.2, rfl⟩
    · rintro ⟨q, hq, rfl⟩
      have hql := g.inv.lt q ((g.inv.labelled q).1 h0)
      have hne : p ≠ q := fun e => h0 (e ▸ hps)
      exact ⟨q, Finset.mem_filter.2 ⟨Finset.mem_range.2 hql, (mem_nbs_any hv hpl hne).1 hq⟩, hlab q hql⟩
  have hp0 : labelAt s' p ≠ 0 := by
    rw [hlab' p hpl]
    exact naive_add_nonzero (by have := hpos 0; omega) (fun q => (hpos q).1) p
  have sub : T ⊆ names shape.prod (labelAt s) := by
    intro l hl
    have h0 : l ≠ 0 := fun e => T0 (e ▸ hl)
    obtain ⟨-, q, -, hq⟩ := Naive.mem_around.1 ((memT l).1 hl)
    have hql := g.inv.lt q ((g.inv.labelled q).1 (by rw [hq]; exact h0))
    rw [names, Finset.mem_erase, Finset.mem_image]
    exact ⟨h0, q, Finset.mem_range.2 hql, by rw [hlab q hql, hq]⟩
  have hsorted : (n.around nb p).Pairwise (· < ·) := sortUnique_sorted _
  have main : (∀ q < shape.prod, q ≠ p → labelAt s' q = if labelAt s q ∈ T then labelAt s' p else labelAt s q) ∧
      (T = ∅ → ∀ q < shape.prod, labelAt s q < labelAt s' p) ∧
      (T ≠ ∅ → labelAt s' p ∈ T ∧ ∀ l ∈ T, labelAt s' p ≤ l) := by
    rw [hlab' p hpl]
    match har : n.around nb p with
    | [] =>
      have hTe : T = ∅ := by
        rw [Finset.eq_empty_iff_forall_notMem]
        intro l hl
        rw [memT, har] at hl
        simp at hl
      have ea : n.add nb p = ⟨fun q => if q = p then n.new else n.lab q, n.new + 1⟩ := by
        unfold Naive.add
        rw [if_neg (by simpa using hps), har]
      refine ⟨fun q hq hqp => ?_, fun _ q hq => ?_, fun hne => absurd hTe hne⟩
      · rw [hlab' q hq, ea, hTe]
        simp [hqp, hlab q hq]
      · rw [hlab q hq, ea]
        simpa using (hpos q).2
    | m :: rest =>
      have ea : n.add nb p = ⟨fun q => if q = p then m else if n.lab q ∈ rest then m else n.lab q, n.new⟩ := by
        unfold Naive.add
        rw [if_neg (by simpa using hps), har]
      have hTm : ∀ l, l ∈ T ↔ l = m ∨ l ∈ rest := fun l => by rw [memT, har, List.mem_cons]
      have em : (n.add nb p).lab p = m := by rw [ea]; simp
      rw [em]
      refine ⟨fun q hq hqp => ?_, fun hTe => ?_, fun _ => ⟨(hTm m).2 (Or.inl rfl), fun l hl => ?_⟩⟩
      · rw [hlab' q hq, hlab q hq, ea]
        simp only [hqp, if_false, hTm]
        by_cases h1 : n.lab q ∈ rest
        · simp [h1]
        · by_cases h2 : n.lab q = m
          · simp [h2]
          · simp [h1, h2]
      · have := (hTm m).2 (Or.inl rfl)
        rw [hTe] at this
        simp at this
      · rcases (hTm l).1 hl with rfl | h1
        · exact le_refl _
        · rw [har, List.pairwise_cons] at hsorted
          exact (hsorted.1 l h1).le
  obtain ⟨values, high, low⟩ := main
  have fresh : labelAt s' p ∈ names shape.prod (labelAt s) → labelAt s' p ∈ T := by
    intro hm
    by_cases hne : T = ∅
    · rw [names, Finset.mem_erase, Finset.mem_image] at hm
      obtain ⟨-, q, hq, hl⟩ := hm
      have := high hne q (Finset.mem_range.1 hq)
      omega
    · exact (low hne).1
  obtain ⟨c1, c2⟩ := merge_counts hpl hp0 (by rw [hlab p hpl]; exact hps) T0 values fresh sub
  exact ⟨s', ret, T, e, rfl, hp0, values, high, low, c1, c2⟩

/-- **C98** for every shape and every kernel: after every history the sizes of the clusters add up to the number of
pixels added. -/
theorem C98_total_any (hv : AnyConfig shape offsets) (hc : ∀ c ∈ calls, c.Valid shape.prod)
    (h : run dbg (init periodic shape offsets) calls = ok (s, rets)) :
    ∑ l ∈ names shape.prod (labelAt s), clusterSize shape.prod (labelAt s) l = (added [] calls).length := by
  classical
  obtain ⟨n, g⟩ := runAny_good hv hc h
  rw [← List.toFinset_card_of_nodup g.inv.nodup]
  unfold clusterSize
  rw [← Finset.card_biUnion]
  · congr 1
    ext q
    simp only [Finset.mem_biUnion, Finset.mem_filter, Finset.mem_range, List.mem_toFinset, names, Finset.mem_erase,
      Finset.mem_image]
    constructor
    · rintro ⟨l, ⟨h0, -⟩, hq, rfl⟩
      by_contra hn
      exact h0 ((anyBackground hv hc h hq).2 hn)
    · intro hq
      have hql := g.inv.lt q hq
      exact ⟨_, ⟨fun h0 => (anyBackground hv hc h hql).1 h0 hq, q, hql, rfl⟩, hql, rfl⟩
  · intro a _ b _ hab
    rw [Function.onFun, Finset.disjoint_filter]
    intro q _ h1 h2
    exact hab (h1.symm.trans h2)

/-- A kernel that looks only to the right: pixel 1 is compared with pixel 2, and not with pixel 0. -/
example : AnyConfig [4] [[1]] ∧ (∀ c ∈ [Call.addPoints [0, 2]], c.Valid [4].prod) ∧
    (1 : Nat) ∉ added [] [Call.addPoints [0, 2]] ∧ (1 : Nat) ∈ (Call.addPoints [1]).visits ∧
    (run true (init false [4] [[1]]) [.addPoints [0, 2]]).get?.map
      (fun r => (labelAt r.1 0, labelAt r.1 1, labelAt r.1 2)) = some (1, 0, 2) ∧
    (run true (init false [4] [[1]]) [.addPoints [0, 2], .addPoints [1]]).get?.map
      (fun r => (labelAt r.1 0, labelAt r.1 1, labelAt r.1 2)) = some (1, 2, 2) := by
  refine ⟨⟨by decide, by simp, by decide, by simp⟩, by simp [Call.Valid], by decide, by decide, by decide +kernel,
    by decide +kernel⟩

end Verif.Props
