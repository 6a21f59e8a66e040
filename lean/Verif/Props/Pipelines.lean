import Verif.Props.Invariance
import Verif.Props.Labels
import Verif.Props.Center
import Verif.Props.Dilate

/-!
# C102: functions on labels applied one after the other

`labels_map` and `labels_rename`, `labels_sizes`, `labels_centers` on the results of `clusters` and `dilate`.
-/

namespace Verif.Props

open Outcome Cluster Labels Spec

/-! ### From the clusters of a box to those of a periodic box -/

/-- `labels_rename(c, labels_map(c, c'))`, with `c` and `c'` the clusters of one image without and with
periodicity, is `c'`: the map says in which periodic cluster every cluster ends. -/
theorem C102_map {dbg dbg' dbg'' : Bool} {shape : List Nat} {f labels labels' : List Int}
    (hn : 1 ≤ shape.length) (hn' : shape.length ≤ 3) (hsmall : shape.prod < 2 ^ 62)
    (hf : f.length = shape.prod) (e : clusters dbg shape f false = ok labels)
    (e' : clusters dbg' shape f true = ok labels') :
    (labelsMap labels labels').bind (fun m => labelsRename dbg'' labels m) = ok labels' := by
  have h1 : labels.length = shape.prod := by
    obtain ⟨L, e1, hl, -⟩ := C03_clusters dbg false hn hn' hsmall hf
    rw [e] at e1; cases e1; exact hl
  have h2 : labels'.length = shape.prod := by
    obtain ⟨L, e1, hl, -⟩ := C03_clusters dbg' true hn hn' hsmall hf
    rw [e'] at e1; cases e1; exact hl
  refine C17_rename_map dbg'' labels labels' (by rw [h1, h2]) fun i j x hi hj => ?_
  obtain ⟨li, ei⟩ := List.getElem?_eq_some_iff.1 hi
  obtain ⟨lj, ej⟩ := List.getElem?_eq_some_iff.1 hj
  have := C70_periodic hn hn' hsmall hf e e' (p := i) (q := j) (h1 ▸ li) (h1 ▸ lj)
    (by simp [List.getD, hi, hj])
  rw [h1] at li lj
  rw [← h2] at li lj
  rw [List.getElem?_eq_getElem li, List.getElem?_eq_getElem lj]
  simpa [List.getD, List.getElem?_eq_getElem li, List.getElem?_eq_getElem lj] using this

example : clusters true [1, 4] [1, 0, 1, 1] false = ok [1, 0, 2, 2] ∧
    clusters true [1, 4] [1, 0, 1, 1] true = ok [1, 0, 1, 1] := by
  constructor <;> decide +kernel

/-! ### Sizes of clusters -/

theorem count_range (l : List Int) (k : Int) :
    l.count k = ((List.range l.length).filter fun q => l.getD q 0 == k).length := by
  induction l using List.reverseRecOn with
  | nil => simp
  | append_singleton l a ih =>
    rw [List.count_append, List.length_append, List.length_singleton, List.range_succ, List.filter_append,
      List.length_append, ih]
    congr 1
    · congr 1
      refine List.filter_congr fun q hq => ?_
      rw [List.mem_range] at hq
      simp [List.getD, List.getElem?_append_left hq]
    · by_cases h : a = k <;> simp [List.getD, h]

theorem sum_filter_split (l : List (Int × Int)) (c : Int × Int → Bool) :
    ((l.filter c).map Prod.snd).sum + ((l.filter fun r => !c r).map Prod.snd).sum = (l.map Prod.snd).sum := by
  induction l with
  | nil => simp
  | cons a l ih =>
    cases h : c a <;> simp [h] <;> omega

theorem row_unique {l : List (Int × Int)} (hs : (l.map Prod.fst).Pairwise (· < ·)) {v : Int} (h : (0, v) ∈ l) :
    (l.filter fun r => !decide (r.1 ≠ 0)) = [(0, v)] := by
  induction l with
  | nil => simp at h
  | cons a l ih =>
    rw [List.map_cons, List.pairwise_cons] at hs
    obtain ⟨k, w⟩ := a
    rcases List.mem_cons.1 h with h | h
    · cases h
      rw [List.filter_cons, if_pos (by simp), List.filter_eq_nil_iff.2]
      intro r hr
      have := hs.1 r.1 (List.mem_map_of_mem hr)
      simp only [ne_eq, decide_not, Bool.not_not, decide_eq_true_eq]
      have : (0 : Int) < r.1 := this
      omega
    · have := hs.1 0 (List.mem_map_of_mem (f := Prod.fst) h)
      rw [List.filter_cons, if_neg, ih hs.2 h]
      simp only [ne_eq, decide_not, Bool.not_not, decide_eq_true_eq]
      simp only at this
      omega

open Classical in
/-- The rows of `labels_sizes(clusters(f, periodic))`: the row of the background, if there is any, and one row
per cluster, with its number of pixels: the number of pixels that are joined with any of its pixels. -/
theorem C102_sizes {dbg periodic : Bool} {shape : List Nat} {f labels : List Int}
    (hn : 1 ≤ shape.length) (hn' : shape.length ≤ 3) (hsmall : shape.prod < 2 ^ 62)
    (hf : f.length = shape.prod) (e : clusters dbg shape f periodic = ok labels) :
    (∀ p < shape.prod, f.getD p 0 ≠ 0 → ∀ v, (labels.getD p 0, v) ∈ labelsSizes labels ↔
      v = (((List.range shape.prod).filter fun q =>
        Joined (FaceAdj periodic shape) (fun r => f.getD r 0 ≠ 0) p q).length : Int)) ∧
    (∀ v, (0, v) ∈ labelsSizes labels ↔ 0 ∈ f ∧ v = (f.count 0 : Int)) ∧
    (((labelsSizes labels).filter fun r => r.1 ≠ 0).map Prod.snd).sum = ((f.filter (· ≠ 0)).length : Int) := by
  obtain ⟨L, e1, hl, hbg, hcon, -⟩ := C03_clusters dbg periodic hn hn' hsmall hf
  rw [e] at e1; cases e1
  obtain ⟨hs, hm⟩ := C21_labels_sizes labels
  have hmem : ∀ p < shape.prod, labels.getD p 0 ∈ labels := by
    intro p hp
    rw [← hl] at hp
    simp [List.getD, List.getElem?_eq_getElem hp]
  have hc0 : labels.count 0 = f.count 0 := by
    rw [count_range, count_range, hl, hf]
    congr 1
    refine List.filter_congr fun q hq => ?_
    rw [List.mem_range] at hq
    rw [Bool.eq_iff_iff, beq_iff_eq, beq_iff_eq]
    exact hbg q hq
  have h0 : 0 ∈ labels ↔ 0 ∈ f := by
    rw [← List.count_pos_iff, hc0, List.count_pos_iff]
  have h0v : ∀ v, (0, v) ∈ labelsSizes labels ↔ 0 ∈ f ∧ v = (f.count 0 : Int) := by
    intro v
    rw [hm, h0, hc0]
  refine ⟨fun p hp hfp v => ?_, h0v, ?_⟩
  · have hc : labels.count (labels.getD p 0) = ((List.range shape.prod).filter fun q =>
        Joined (FaceAdj periodic shape) (fun r => f.getD r 0 ≠ 0) p q).length := by
      rw [count_range, hl]
      congr 1
      refine List.filter_congr fun q hq => ?_
      rw [List.mem_range] at hq
      rw [Bool.eq_iff_iff, beq_iff_eq, decide_eq_true_iff, eq_comm,
        clusters_eq_iff hn hn' hsmall hf e hp hq]
      exact ⟨fun h => h.resolve_left fun h' => hfp h'.1, Or.inr⟩
    rw [hm, hc]
    exact ⟨fun h => h.2, fun h => ⟨hmem p hp, h⟩⟩
  · have ht := C21_labels_sizes_total labels
    rw [← sum_filter_split _ (fun r => decide (r.1 ≠ 0)), hl, ← hf] at ht
    have hz : (((labelsSizes labels).filter fun r => !decide (r.1 ≠ 0)).map Prod.snd).sum = (f.count 0 : Int) := by
      by_cases h : 0 ∈ f
      · rw [row_unique hs ((h0v _).2 ⟨h, rfl⟩)]
        simp
      · rw [List.count_eq_zero.2 h, List.filter_eq_nil_iff.2]
        · simp
        · rintro ⟨a, v⟩ hr ha
          simp only [ne_eq, decide_not, Bool.not_not, decide_eq_true_eq] at ha
          subst ha
          exact h ((h0v v).1 hr).1
    have hf0 : (f.length : Int) = ((f.filter (· ≠ 0)).length : Int) + f.count 0 := by
      have := List.length_eq_countP_add_countP (p := fun x : Int => decide (x ≠ 0)) (l := f)
      rw [this, List.countP_eq_length_filter, List.count]
      push_cast
      congr 2
      refine List.countP_congr fun x _ => ?_
      simp
    omega

/-- A cluster of two pixels and one of three. -/
example : clusters true [2, 4] [1, 0, 1, 0, 1, 0, 1, 5] false = ok [1, 0, 2, 0, 1, 0, 2, 2] ∧
    labelsSizes [1, 0, 2, 0, 1, 0, 2, 2] = [(0, 3), (1, 2), (2, 3)] := by
  constructor <;> decide +kernel

/-! ### Centers and sizes -/

theorem count_argwhere (labels : Nd Int) (name : Int) : labels.toList.count name = (Center.argwhere labels name).length := by
  unfold Nd.toList Center.argwhere
  rw [List.length_map, List.count, List.countP_map, List.countP_eq_length_filter]
  congr 1

theorem sum_over_names {α : Type} (l : List α) (v : α → Int) (g : α → ℝ) {names : List Int} (hd : names.Nodup)
    (hc : ∀ x ∈ l, v x ∈ names) :
    (names.map fun name => ((l.filter fun x => v x == name).map g).sum).sum = (l.map g).sum := by
  induction l with
  | nil => simp
  | cons a l ih =>
    rw [List.map_cons, List.sum_cons, ← ih fun x hx => hc x (List.mem_cons_of_mem _ hx)]
    have ha := hc a List.mem_cons_self
    clear hc ih
    induction names with
    | nil => simp at ha
    | cons m names ih =>
      rw [List.nodup_cons] at hd
      rw [List.map_cons, List.sum_cons, List.map_cons, List.sum_cons]
      by_cases h : v a = m
      · have hk : ∀ name ∈ names, (((a :: l).filter fun x => v x == name).map g).sum =
            ((l.filter fun x => v x == name).map g).sum := by
          intro name hn
          rw [List.filter_cons, if_neg]
          rw [beq_iff_eq, h]
          rintro rfl
          exact hd.1 hn
        rw [List.map_congr_left hk, List.filter_cons, if_pos (by simpa using h), List.map_cons, List.sum_cons]
        ring
      · rw [ih hd.2 ((List.mem_cons.1 ha).resolve_left h), List.filter_cons, if_neg (by simpa using h)]
        ring

theorem map_getElem_eq {α β : Type} {l : List α} {r : List β} {F : α → β} (h : r.length = l.length)
    (hr : ∀ i (hi : i < l.length), r[i]? = some (F l[i])) : r = l.map F := by
  refine List.ext_getElem? fun i => ?_
  by_cases hi : i < l.length
  · rw [hr i hi, List.getElem?_map, List.getElem?_eq_getElem hi]
    rfl
  · rw [List.getElem?_eq_none (by omega), List.getElem?_eq_none (by simpa using hi)]

/-- Without periodicity the centers of the labels are in balance around the center of the image: `sizes @ centers`
is the number of pixels times the center of all pixels, if every label has one name. Here `sizes` is
`labels_sizes(labels, names)` and `centers` is `labels_centers(labels, names, periodic=False)`. -/
theorem C102_balance (dbg : Bool) {n : Nat} (negative : Nat → Fin n → Bool) (labels : Nd Int)
    (hn : labels.shape.length = n) (h0 : 0 < n) (names : List Int) (hd : names.Nodup)
    (hc : ∀ x ∈ pixels labels.shape, val labels x ∈ names) :
    ∃ rows, Center.labelsCenters dbg negative labels hn names false = .ok rows ∧ ∀ s j,
      (List.zipWith (fun (size : Int) (row : Fin n → ℝ) => (size : ℝ) * row j)
        (labelsSizesNames labels.toList names) rows).sum =
      ((pixels labels.shape).length : ℝ) *
        Center.center s (box n labels.shape) ((pixels labels.shape).map (coords n)) false j := by
  obtain ⟨rows, h1, h2, h3⟩ := C52_centers dbg negative labels hn h0 names false
  refine ⟨rows, h1, fun s j => ?_⟩
  have hl : ∀ name : Int, Enumerates labels name ((pixels labels.shape).filter fun x => val labels x == name) := by
    intro name
    refine ⟨(pixels_nodup _).filter _, fun x => ?_⟩
    rw [List.mem_filter, mem_pixels, beq_iff_eq]
  have hz : List.zipWith (fun (size : Int) (row : Fin n → ℝ) => (size : ℝ) * row j)
      (labelsSizesNames labels.toList names) rows = names.map fun name =>
        (((pixels labels.shape).filter fun x => val labels x == name).map fun x => coords n x j).sum := by
    refine map_getElem_eq ?_ fun i hi => ?_
    · rw [C21_labels_sizes_names]
      simp [h2]
    · obtain ⟨row, hr, -, he⟩ := h3 i hi _ (hl names[i])
      have he := he s j
      unfold SameIn at he
      rw [if_neg (by simp)] at he
      rw [C21_labels_sizes_names, List.getElem?_zipWith, List.getElem?_map, List.getElem?_eq_getElem hi, hr]
      simp only [Option.map_some, Option.some.injEq]
      rw [count_argwhere, (Center.argwhere_perm (hl names[i])).length_eq, he]
      generalize ((pixels labels.shape).filter fun x => val labels x == names[i]) = l
      by_cases hl : l = []
      · subst hl; simp
      · rw [C49_mean _ _ _ (by simpa using hl)]
        have : (l.length : ℝ) ≠ 0 := by exact_mod_cast fun h => hl (List.length_eq_zero_iff.1 h)
        unfold column
        rw [List.length_map, List.map_map]
        push_cast
        rw [mul_div_cancel₀ _ this]
        rfl
  rw [hz, sum_over_names _ _ _ hd hc]
  by_cases hp : pixels labels.shape = []
  · simp [hp]
  · rw [C49_mean _ _ _ (by simpa using hp)]
    have : ((pixels labels.shape).length : ℝ) ≠ 0 := by exact_mod_cast fun h => hp (List.length_eq_zero_iff.1 h)
    unfold column
    rw [List.length_map, List.map_map, mul_div_cancel₀ _ this]
    rfl

/-- The total weight of the pixels of a label. -/
noncomputable def massOf (labels : Nd Int) (weights : Nd ℝ) (name : Int) : ℝ :=
  (((pixels labels.shape).filter fun x => val labels x == name).map (val weights)).sum

theorem zip_map_sum {α : Type} (l : List α) (u v : α → ℝ) :
    ((List.zip (l.map u) (l.map v)).map fun p => p.1 * p.2).sum = (l.map fun x => u x * v x).sum := by
  induction l with
  | nil => simp
  | cons a l ih => simp [ih]

/-- Without periodicity the centers of mass of the labels, with the total weights of the labels, are in balance around
the center of mass of the image, if every label has one name. -/
theorem C102_balance_mass (dbg : Bool) {n : Nat} (negative : Nat → Fin n → Bool) (labels : Nd Int)
    (hn : labels.shape.length = n) (h0 : 0 < n) (weights : Nd ℝ) (hw : weights.shape = labels.shape) (names : List Int)
    (hd : names.Nodup) (hc : ∀ x ∈ pixels labels.shape, val labels x ∈ names)
    (hm : ∀ x ∈ pixels labels.shape, massOf labels weights (val labels x) ≠ 0)
    (ht : ((pixels labels.shape).map (val weights)).sum ≠ 0) :
    ∃ rows, Center.labelsCentersOfMass dbg negative labels hn weights names false = .ok rows ∧ ∀ s j,
      (List.zipWith (fun (name : Int) (row : Fin n → ℝ) => massOf labels weights name * row j) names rows).sum =
      ((pixels labels.shape).map (val weights)).sum *
        Center.centerOfMass s (box n labels.shape) ((pixels labels.shape).map (coords n))
          ((pixels labels.shape).map (val weights)) false j := by
  obtain ⟨rows, h1, h2, h3⟩ := C52_mass dbg negative labels hn h0 weights hw names false
  refine ⟨rows, h1, fun s j => ?_⟩
  have hl : ∀ name : Int, Enumerates labels name ((pixels labels.shape).filter fun x => val labels x == name) := by
    intro name
    refine ⟨(pixels_nodup _).filter _, fun x => ?_⟩
    rw [List.mem_filter, mem_pixels, beq_iff_eq]
  have hz : List.zipWith (fun (name : Int) (row : Fin n → ℝ) => massOf labels weights name * row j) names rows =
      names.map fun name => (((pixels labels.shape).filter fun x => val labels x == name).map fun x =>
        val weights x * coords n x j).sum := by
    refine map_getElem_eq ?_ fun i hi => ?_
    · simp [h2]
    · obtain ⟨row, hr, -, he⟩ := h3 i hi _ (hl names[i])
      have he := he s j
      unfold SameIn at he
      rw [if_neg (by simp)] at he
      rw [List.getElem?_zipWith, List.getElem?_eq_getElem hi, hr]
      simp only [Option.some.injEq]
      rw [he]
      by_cases hne : ((pixels labels.shape).filter fun x => val labels x == names[i]) = []
      · unfold massOf
        rw [hne]
        simp
      · rw [C51_flat _ _ _ _ (by simpa using hne)]
        obtain ⟨x, hx⟩ := List.exists_mem_of_ne_nil _ hne
        rw [List.mem_filter, beq_iff_eq] at hx
        have hm := hm x hx.1
        rw [hx.2] at hm
        unfold column
        rw [List.map_map]
        show massOf labels weights names[i] * (_ / massOf labels weights names[i]) = _
        rw [mul_div_cancel₀ _ hm]
        exact zip_map_sum _ _ _
  rw [hz, sum_over_names _ _ _ hd hc]
  have hp : pixels labels.shape ≠ [] := fun h => ht (by rw [h]; rfl)
  rw [C51_flat _ _ _ _ (by simpa using hp), mul_div_cancel₀ _ ht]
  unfold column
  rw [List.map_map]
  exact (zip_map_sum _ _ _).symm

/-- Positive weights meet the hypotheses. -/
example (labels : Nd Int) (weights : Nd ℝ) (h : ∀ x ∈ pixels labels.shape, 0 < val weights x) :
    ∀ x ∈ pixels labels.shape, massOf labels weights (val labels x) ≠ 0 := by
  intro x hx
  refine (List.sum_pos _ (fun y hy => ?_) fun h => ?_).ne'
  · obtain ⟨z, hz, rfl⟩ := List.mem_map.1 hy
    exact h z (List.mem_filter.1 hz).1
  · have : x ∈ (pixels labels.shape).filter fun y => val labels y == val labels x :=
      List.mem_filter.2 ⟨hx, beq_self_eq_true _⟩
    rw [List.map_eq_nil_iff.1 h] at this
    cases this

/-- The names that `labels_sizes(labels)` lists meet the hypotheses, for every image. -/
theorem C102_balance_names (labels : Nd Int) :
    ((labelsSizes labels.toList).map Prod.fst).Nodup ∧
    ∀ x ∈ pixels labels.shape, val labels x ∈ (labelsSizes labels.toList).map Prod.fst := by
  obtain ⟨h1, h2⟩ := C21_labels_sizes labels.toList
  refine ⟨h1.imp fun h => ne_of_lt h, fun x hx => ?_⟩
  exact List.mem_map.2 ⟨_, (h2 _ _).2 ⟨Dilate.mem_toList.2 ⟨x, hx, rfl⟩, rfl⟩, rfl⟩

example : (labelsSizes (Nd.ofList [2, 3] [0, 1, 0, 4, 1, 4]).toList) = [(0, 2), (1, 2), (4, 2)] := by decide

/-! ### Sizes after dilation -/

theorem count_pixels (labels : Nd Int) (name : Int) :
    labels.toList.count name = ((pixels labels.shape).filter fun x => val labels x == name).length := by
  rw [count_argwhere]
  refine (Center.argwhere_perm ⟨(pixels_nodup _).filter _, fun x => ?_⟩).length_eq
  rw [List.mem_filter, mem_pixels, beq_iff_eq]

theorem filter_sublist {α : Type} {l : List α} {c d : α → Bool} (h : ∀ x ∈ l, c x → d x) :
    (l.filter c).Sublist (l.filter d) := by
  induction l with
  | nil => simp
  | cons a l ih =>
    have ih := ih fun x hx => h x (List.mem_cons_of_mem _ hx)
    rw [List.filter_cons, List.filter_cons]
    by_cases hc : c a
    · rw [if_pos hc, if_pos (h a List.mem_cons_self hc)]
      exact ih.cons_cons a
    · rw [if_neg hc]
      split
      · exact ih.cons a
      · exact ih

/-- After `dilate` there are the same labels, apart from the background that may be used up; no label has become
smaller, and the background has not become larger. -/
theorem C102_dilate {periodic : Bool} {f kernel : Nd Int} {iterations : List Nat} (dbg : Bool)
    (h : DilateArgs periodic f kernel iterations) :
    ∃ r, Dilate.dilate dbg f kernel iterations periodic = ok r ∧
      (∀ name, name ≠ 0 → (name ∈ (labelsSizes r.toList).map Prod.fst ↔
        name ∈ (labelsSizes f.toList).map Prod.fst)) ∧
      (∀ name v w, name ≠ 0 → (name, v) ∈ labelsSizes f.toList → (name, w) ∈ labelsSizes r.toList → v ≤ w) ∧
      (∀ w, (0, w) ∈ labelsSizes r.toList → ∃ v, (0, v) ∈ labelsSizes f.toList ∧ w ≤ v) := by
  obtain ⟨r, h1, h2, h3, h4, -⟩ := dilate_facts dbg h
  have hf := (C21_labels_sizes f.toList).2
  have hr := (C21_labels_sizes r.toList).2
  have names : ∀ (a : Nd Int) (name : Int), name ∈ (labelsSizes a.toList).map Prod.fst ↔
      ∃ x ∈ pixels a.shape, val a x = name := by
    intro a name
    rw [← Dilate.mem_toList, List.mem_map]
    constructor
    · rintro ⟨⟨k, v⟩, hm, rfl⟩
      exact (((C21_labels_sizes a.toList).2 k v).1 hm).1
    · exact fun h => ⟨(name, _), ((C21_labels_sizes a.toList).2 name _).2 ⟨h, rfl⟩, rfl⟩
  refine ⟨r, h1, fun name hne => ?_, fun name v w hne hv hw => ?_, fun w hw => ?_⟩
  · rw [names, names, h2]
    constructor
    · rintro ⟨x, hx, e⟩
      obtain ⟨y, hy, e', -⟩ := h4 x hx (by rw [e]; exact hne)
      exact ⟨y, hy, by rw [e', e]⟩
    · rintro ⟨x, hx, e⟩
      exact ⟨x, hx, by rw [h3 x hx (by rw [e]; exact hne), e]⟩
  · rw [((hf name v).1 hv).2, ((hr name w).1 hw).2, count_pixels, count_pixels, h2]
    have : ((pixels f.shape).filter fun x => val f x == name).length ≤
        ((pixels f.shape).filter fun x => val r x == name).length := by
      refine (filter_sublist fun x hx e => ?_).length_le
      rw [beq_iff_eq] at e ⊢
      rw [h3 x hx (by rw [e]; exact hne), e]
    exact_mod_cast this
  · have h0 : ∀ x ∈ pixels f.shape, val r x = 0 → val f x = 0 := by
      intro x hx e
      by_contra hne
      exact hne (by rw [← h3 x hx hne, e])
    obtain ⟨hm, hw⟩ := (hr 0 w).1 hw
    obtain ⟨x, hx, e⟩ := Dilate.mem_toList.1 hm
    rw [h2] at hx
    refine ⟨_, (hf 0 _).2 ⟨Dilate.mem_toList.2 ⟨x, hx, h0 x hx e⟩, rfl⟩, ?_⟩
    rw [hw, count_pixels, count_pixels, h2]
    have : ((pixels f.shape).filter fun x => val r x == 0).length ≤
        ((pixels f.shape).filter fun x => val f x == 0).length := by
      refine (filter_sublist fun x hx e => ?_).length_le
      rw [beq_iff_eq] at e ⊢
      exact h0 x hx e
    exact_mod_cast this

/-- Two labels, with different numbers of iterations. -/
example : DilateArgs true (Nd.ofList [3, 3] [1, 0, 0, 0, 0, 0, 0, 0, 2]) (Nd.fill [3, 3] 1) [0, 1, 2] := by
  refine ⟨⟨by decide, by decide, rfl, fun _ => ?_⟩, by decide, by unfold IsMask; decide, by decide⟩
  simp [Nd.ofList, Nd.fill]

end Verif.Props
