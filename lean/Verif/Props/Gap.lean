import Verif.Props.DilateAlgebra
import Verif.Props.Hierarchy
import Verif.Props.Kernel

/-! # Clusters of a dilated image (C129) -/

namespace Verif.Props

open Verif Outcome Spec Cluster Nd Ens Dilate

variable {periodic : Bool} {f kernel : Nd Int}

namespace Spec

/-- `y` follows from `x` by hops between pixels that are not background, each of at most `m` steps of the kernel. -/
def Hops (periodic : Bool) (f kernel : Nd Int) (m : Nat) : List Int → List Int → Prop :=
  Relation.ReflTransGen fun a b => b ∈ pixels f.shape ∧ val f b ≠ 0 ∧ Reach periodic f.shape kernel a m b

/-- The steps by the kernel are those to pixels that share a face (or to the pixel itself). -/
def FaceKernel (ndim : Nat) (kernel : Nd Int) : Prop :=
  (∀ d, Offset kernel d → d.length = ndim ∧ (d.map Int.natAbs).sum ≤ 1) ∧
    ∀ d, d.length = ndim → (d.map Int.natAbs).sum = 1 → Offset kernel d

/-- `Hops`, with the number of steps along the axes. -/
def HopsGrid (f : Nd Int) (m : Nat) : List Int → List Int → Prop :=
  Relation.ReflTransGen fun a b => b ∈ pixels f.shape ∧ val f b ≠ 0 ∧ gridDistance a b ≤ m

end Spec

/-- Pixels that differ by an offset. -/
theorem shifted_eq (periodic : Bool) : ∀ {s : List Nat} {x d y : List Int}, InBox s y → Spec.Shifted periodic s x d y →
    y = target periodic s x d
  | [], [], [], [], _, _ => by cases periodic <;> rfl
  | n :: s, i :: x, e :: d, j :: y, hy, h => by
    cases hy with
    | cons h1 h2 =>
    have ih := shifted_eq periodic h2 h.2
    have h := h.1
    cases periodic
    · simp only [target, move, Bool.false_eq_true, if_false, List.zipWith_cons_cons] at ih h ⊢
      rw [ih, h]
    · simp only [target, move, wrap, if_true, List.zipWith_cons_cons] at ih h ⊢
      rw [← ih]
      congr 1
      have e1 : (i + e) % n = j % n := Int.emod_eq_emod_iff_emod_sub_eq_zero.2 (Int.emod_eq_zero_of_dvd h)
      rw [e1, Int.emod_eq_of_lt h1.1 h1.2]

/-- A walk, from its first step. -/
theorem reach_head {s : List Nat} {x y : List Int} {n : Nat} (h : Reach periodic s kernel x n y) :
    x = y ∨ ∃ m d, n = m + 1 ∧ Offset kernel d ∧ target periodic s x d ∈ pixels s ∧
      Reach periodic s kernel (target periodic s x d) m y := by
  induction h with
  | here => exact Or.inl rfl
  | step n w d hw hd ht ih =>
    rcases ih with rfl | ⟨m, d', rfl, hd', ht', hr⟩
    · exact Or.inr ⟨n, d, rfl, hd, ht, .here _⟩
    · exact Or.inr ⟨m + 1, d', rfl, hd', ht', .step _ _ _ hr hd ht⟩

theorem joined_trans {adj : Nat → Nat → Prop} {S : Nat → Prop} {p q r : Nat} (h1 : Joined adj S p q)
    (h2 : Joined adj S q r) : Joined adj S p r := by
  induction h2 with
  | refl => exact h1
  | step _ ha hs ih => exact .step ih ha hs

/-- Clusters of the pixels within `n` steps of others. -/
theorem gap_core {adj : Nat → Nat → Prop} {S : Nat → Prop} {n : Nat} (hk : kernel.shape.length = f.shape.length)
    (hsym : ∀ d, Offset kernel d → Offset kernel (neg d))
    (h1 : ∀ p q, adj p q → ∃ x ∈ pixels f.shape, ∃ y ∈ pixels f.shape, (flat f.shape x).toNat = p ∧
      (flat f.shape y).toNat = q ∧ Reach periodic f.shape kernel x 1 y)
    (h2 : ∀ x ∈ pixels f.shape, ∀ d, Offset kernel d → target periodic f.shape x d ∈ pixels f.shape →
      target periodic f.shape x d = x ∨ adj (flat f.shape x).toNat (flat f.shape (target periodic f.shape x d)).toNat)
    (hS : ∀ x ∈ pixels f.shape, S (flat f.shape x).toNat ↔
      ∃ y ∈ pixels f.shape, val f y ≠ 0 ∧ Reach periodic f.shape kernel y n x)
    {x y : List Int} (hx : x ∈ pixels f.shape) (hy : y ∈ pixels f.shape) (vx : val f x ≠ 0) (vy : val f y ≠ 0) :
    Joined adj S (flat f.shape x).toNat (flat f.shape y).toNat ↔ Spec.Hops periodic f kernel (2 * n + 1) x y := by
  have inj : ∀ {a b : List Int}, a ∈ pixels f.shape → b ∈ pixels f.shape →
      (flat f.shape a).toNat = (flat f.shape b).toNat → a = b := by
    intro a b ha hb e
    have ra := flat_range (mem_pixels.1 ha)
    have rb := flat_range (mem_pixels.1 hb)
    exact flat_inj (mem_pixels.1 ha) (mem_pixels.1 hb) (by omega)
  constructor
  · intro h
    have key : ∀ q, Joined adj S (flat f.shape x).toNat q → ∃ z ∈ pixels f.shape, (flat f.shape z).toNat = q ∧
        ∃ s ∈ pixels f.shape, val f s ≠ 0 ∧ Spec.Hops periodic f kernel (2 * n + 1) x s ∧
          Reach periodic f.shape kernel s n z := by
      intro q h
      induction h with
      | refl => exact ⟨x, hx, rfl, x, hx, vx, .refl, .here _⟩
      | step _ ha hs ih =>
        obtain ⟨z, hz, rfl, s, hs', vs, hop, hr⟩ := ih
        obtain ⟨a, ha', b, hb, ea, rfl, hab⟩ := h1 _ _ ha
        have : a = z := inj ha' hz ea
        subst this
        obtain ⟨t, ht, vt, hr'⟩ := (hS b hb).1 hs
        refine ⟨b, hb, rfl, t, ht, vt, hop.tail ⟨ht, vt, ?_⟩, hr'⟩
        exact Reach.mono (reach_trans (reach_trans hr hab) (reach_symm hk hsym ht hr')) (by omega)
    obtain ⟨z, hz, e, s, -, -, hop, hr⟩ := key _ h
    have : z = y := inj hz hy e
    subst this
    exact hop.tail ⟨hy, vy, Reach.mono hr (by omega)⟩
  · intro h
    have sx : ∀ {a : List Int}, a ∈ pixels f.shape → val f a ≠ 0 → S (flat f.shape a).toNat := fun ha va =>
      (hS _ ha).2 ⟨_, ha, va, .here _⟩
    have walk : ∀ {a b : List Int}, a ∈ pixels f.shape → val f a ≠ 0 → b ∈ pixels f.shape → val f b ≠ 0 →
        ∀ j i z, z ∈ pixels f.shape → i + j ≤ 2 * n + 1 → Reach periodic f.shape kernel a i z →
        Reach periodic f.shape kernel z j b → S (flat f.shape z).toNat →
        Joined adj S (flat f.shape z).toNat (flat f.shape b).toNat := by
      intro a b ha va hb vb j
      induction j with
      | zero =>
        intro i z hz _ _ hzb hs
        rcases reach_head hzb with rfl | ⟨m, _, e, _⟩
        · exact .refl hs
        · omega
      | succ j ih =>
        intro i z hz hij haz hzb hs
        rcases reach_head hzb with rfl | ⟨m, d, e, hd, ht, hr⟩
        · exact .refl hs
        have : m = j := by omega
        subst this
        have haz' := Reach.step _ _ _ haz hd ht
        have hs' : S (flat f.shape (target periodic f.shape z d)).toNat := by
          by_cases hi : i + 1 ≤ n
          · exact (hS _ ht).2 ⟨a, ha, va, Reach.mono haz' hi⟩
          · exact (hS _ ht).2 ⟨b, hb, vb, Reach.mono (reach_symm hk hsym ht hr) (by omega)⟩
        have rest := ih (i + 1) _ ht (by omega) haz' hr hs'
        rcases h2 z hz d hd ht with e | ha
        · rwa [e] at rest
        · exact joined_trans (.step (.refl hs) ha hs') rest
    clear vy
    revert hy
    induction h with
    | refl => exact fun _ => .refl (sx hx vx)
    | @tail a b hop hab ih =>
      intro hb
      have ha : a ∈ pixels f.shape ∧ val f a ≠ 0 := by
        rcases Relation.ReflTransGen.cases_tail hop with rfl | ⟨_, _, h, v, _⟩
        · exact ⟨hx, vx⟩
        · exact ⟨h, v⟩
      exact joined_trans (ih ha.1) (walk ha.1 ha.2 hb hab.2.1 (2 * n + 1) 0 a ha.1 (by omega) (.here _) hab.2.2 (sx ha.1 ha.2))

/-- A walk between pixels of a set that holds all that it visits. -/
theorem joined_reach {adj : Nat → Nat → Prop} {S : Nat → Prop} {n : Nat}
    (h2 : ∀ x ∈ pixels f.shape, ∀ d, Offset kernel d → target periodic f.shape x d ∈ pixels f.shape →
      target periodic f.shape x d = x ∨ adj (flat f.shape x).toNat (flat f.shape (target periodic f.shape x d)).toNat)
    (hS : ∀ x ∈ pixels f.shape, S (flat f.shape x).toNat ↔
      ∃ y ∈ pixels f.shape, val f y ≠ 0 ∧ Reach periodic f.shape kernel y n x)
    {x : List Int} (hx : x ∈ pixels f.shape) (vx : val f x ≠ 0) {y : List Int} {m : Nat}
    (hr : Reach periodic f.shape kernel x m y) (hm : m ≤ n) :
    Joined adj S (flat f.shape x).toNat (flat f.shape y).toNat := by
  induction hr with
  | here k => exact .refl ((hS _ hx).2 ⟨x, hx, vx, .here _⟩)
  | step k w d hw hd ht ih =>
    have hs := (hS _ ht).2 ⟨x, hx, vx, Reach.mono (.step _ _ _ hw hd ht) hm⟩
    rcases h2 w (reach_mem hw hx) d hd ht with e | ha
    · rw [e]; exact ih (by omega)
    · exact .step (ih (by omega)) ha hs

theorem sum_zero_replicate : ∀ {d : List Int}, (d.map Int.natAbs).sum = 0 → d = List.replicate d.length 0
  | [], _ => rfl
  | e :: d, h => by
    simp only [List.map_cons, List.sum_cons, Nat.add_eq_zero_iff, Int.natAbs_eq_zero] at h
    rw [List.length_cons, List.replicate_succ, ← sum_zero_replicate h.2, h.1]

theorem neg_natAbs (d : List Int) : ((neg d).map Int.natAbs) = d.map Int.natAbs := by
  simp [neg, Function.comp_def]

theorem toList_getD {r : Nd Int} {x : List Int} (hx : x ∈ pixels r.shape) :
    r.toList.getD (flat r.shape x).toNat 0 = val r x := by
  have := flat_range (mem_pixels.1 hx)
  have h : (flat r.shape x).toNat < r.size := by unfold Nd.size; rw [prodShape_eq]; omega
  simp [Nd.toList, val, h]

/-- C129: let `r` be the dilation of `f` by `n` iterations of a kernel that steps across faces. In
`clusters(r)`, two pixels of `f` get the same label if and only if one follows from the other by hops between
pixels of `f` of at most `2 n + 1` steps each; and every cluster of `r` holds a pixel of `f`. -/
theorem C129_gap (dbg dbg' : Bool) {n : Nat} (hn : 1 ≤ f.shape.length) (a : SameArgs periodic f kernel)
    (hk : Spec.FaceKernel f.shape.length kernel) (hsmall : f.shape.prod < 2 ^ 62) :
    ∃ r labels, dilateSame dbg f kernel n periodic = ok r ∧ clusters dbg' f.shape r.toList periodic = ok labels ∧
      (∀ x y, Labelled f x → Labelled f y →
        (labels.getD (flat f.shape x).toNat 0 = labels.getD (flat f.shape y).toNat 0 ↔
          Spec.Hops periodic f kernel (2 * n + 1) x y)) ∧
      ∀ z ∈ pixels f.shape, labels.getD (flat f.shape z).toNat 0 ≠ 0 →
        ∃ x, Labelled f x ∧ labels.getD (flat f.shape x).toNat 0 = labels.getD (flat f.shape z).toNat 0 := by
  obtain ⟨r, e1, hs, hkeep, h3, h4⟩ := C23_same dbg (k := n) a.legal a.image a.mask a.label
  have hlen : r.toList.length = f.shape.prod := by
    simp [Nd.toList, Nd.size, prodShape_eq, hs]
  obtain ⟨labels, e2, -, hbg, hjoin, -, -⟩ := C03_clusters dbg' periodic hn
    (by have := a.legal.rank; have := a.legal.same; omega) hsmall hlen
  have hget : ∀ x ∈ pixels f.shape, r.toList.getD (flat f.shape x).toNat 0 = val r x := by
    intro x hx
    rw [← hs] at hx ⊢
    exact toList_getD hx
  have hlt : ∀ x ∈ pixels f.shape, (flat f.shape x).toNat < f.shape.prod := by
    intro x hx
    have := flat_range (mem_pixels.1 hx)
    omega
  have hS : ∀ x ∈ pixels f.shape, r.toList.getD (flat f.shape x).toNat 0 ≠ 0 ↔
      ∃ y ∈ pixels f.shape, val f y ≠ 0 ∧ Reach periodic f.shape kernel y n x := by
    intro x hx
    rw [hget x hx]
    refine ⟨fun h => ?_, h4 x hx⟩
    obtain ⟨y, hy, e, hr⟩ := h3 x hx h
    exact ⟨y, hy, by rw [e]; exact h, hr⟩
  have h1 : ∀ p q, FaceAdj periodic f.shape p q → ∃ x ∈ pixels f.shape, ∃ y ∈ pixels f.shape,
      (flat f.shape x).toNat = p ∧ (flat f.shape y).toNat = q ∧ Reach periodic f.shape kernel x 1 y := by
    rintro p q ⟨x, y, d, hd, hd1, hx, hy, hsh, ex, ey⟩
    have e := shifted_eq periodic hy hsh
    refine ⟨x, mem_pixels.2 hx, y, mem_pixels.2 hy, by omega, by omega, ?_⟩
    subst e
    exact .step 0 _ _ (.here 0) (hk.2 d hd hd1) (mem_pixels.2 hy)
  have h2 : ∀ x ∈ pixels f.shape, ∀ d, Offset kernel d → target periodic f.shape x d ∈ pixels f.shape →
      target periodic f.shape x d = x ∨
        FaceAdj periodic f.shape (flat f.shape x).toNat (flat f.shape (target periodic f.shape x d)).toNat := by
    intro x hx d hd ht
    obtain ⟨l1, l2⟩ := hk.1 d hd
    by_cases h0 : (d.map Int.natAbs).sum = 0
    · left
      refine target_zero hx l1 ?_
      rw [sum_zero_replicate h0]
      intro e he
      exact List.eq_of_mem_replicate he
    · right
      have r1 := flat_range (mem_pixels.1 hx)
      have r2 := flat_range (mem_pixels.1 ht)
      exact ⟨x, _, d, l1, by omega, mem_pixels.1 hx, mem_pixels.1 ht,
        shifted_target periodic (inbox_length (mem_pixels.1 hx)) l1, by omega, by omega⟩
  have hsym : ∀ d, Offset kernel d → Offset kernel (neg d) := by
    intro d hd
    obtain ⟨l1, l2⟩ := hk.1 d hd
    by_cases h0 : (d.map Int.natAbs).sum = 0
    · have : neg d = d := by rw [sum_zero_replicate h0]; simp [neg]
      rwa [this]
    · exact hk.2 _ (by rw [neg_length, l1]) (by rw [neg_natAbs]; omega)
  refine ⟨r, labels, e1, e2, fun x y hx hy => ?_, fun z hz hl => ?_⟩
  · have vx : r.toList.getD (flat f.shape x).toNat 0 ≠ 0 := (hS x hx.1).2 ⟨x, hx.1, hx.2, .here _⟩
    have vy : r.toList.getD (flat f.shape y).toNat 0 ≠ 0 := (hS y hy.1).2 ⟨y, hy.1, hy.2, .here _⟩
    rw [hjoin _ (hlt x hx.1) _ (hlt y hy.1) vx vy]
    exact gap_core (S := fun r' => r.toList.getD r' 0 ≠ 0) a.legal.same.symm hsym h1 h2 hS hx.1 hy.1 hx.2 hy.2
  · have vz : r.toList.getD (flat f.shape z).toNat 0 ≠ 0 := fun h => hl ((hbg _ (hlt z hz)).2 h)
    obtain ⟨x, hx, vx, hr⟩ := (hS z hz).1 vz
    have vx' : r.toList.getD (flat f.shape x).toNat 0 ≠ 0 := (hS x hx).2 ⟨x, hx, vx, .here _⟩
    refine ⟨x, ⟨hx, vx⟩, (hjoin _ (hlt x hx) _ (hlt z hz) vx' vz).2 ?_⟩
    exact joined_reach (S := fun r' => r.toList.getD r' 0 ≠ 0) h2 hS hx vx hr (le_refl _)

theorem gridDistance_move : ∀ (x w d : List Int), x.length = w.length → d.length = w.length →
    gridDistance x (move w d) ≤ gridDistance x w + (d.map Int.natAbs).sum
  | [], [], [], _, _ => by simp [gridDistance]
  | i :: x, j :: w, e :: d, h1, h2 => by
    have := gridDistance_move x w d (by simpa using h1) (by simpa using h2)
    simp only [gridDistance, move, List.zipWith_cons_cons, List.sum_cons, List.map_cons] at this ⊢
    omega

theorem gridDistance_self : ∀ x : List Int, gridDistance x x = 0
  | [] => rfl
  | i :: x => by
    have := gridDistance_self x
    simp only [gridDistance, List.zipWith_cons_cons, List.sum_cons] at this ⊢
    omega

theorem gridDistance_comm : ∀ x y : List Int, gridDistance x y = gridDistance y x
  | [], [] => rfl
  | [], _ :: _ => rfl
  | _ :: _, [] => rfl
  | i :: x, j :: y => by
    have := gridDistance_comm x y
    simp only [gridDistance, List.zipWith_cons_cons, List.sum_cons] at this ⊢
    omega

/-- Without periodicity the number of steps is the distance along the axes. -/
theorem reach_iff_distance {s : List Nat} (hk : Spec.FaceKernel s.length kernel) {x y : List Int}
    (hx : x ∈ pixels s) (hy : y ∈ pixels s) {n : Nat} : Reach false s kernel x n y ↔ gridDistance x y ≤ n := by
  constructor
  · intro hr
    clear hy
    induction hr with
    | here n => rw [gridDistance_self]; omega
    | step k w d hw hd ht ih =>
      obtain ⟨l1, l2⟩ := hk.1 d hd
      have hw' := inbox_length (mem_pixels.1 (reach_mem hw hx))
      have := gridDistance_move x w d (by rw [hw', inbox_length (mem_pixels.1 hx)]) (by rw [hw', l1])
      have e : target false s w d = move w d := rfl
      rw [e]
      omega
  · intro hd
    have main : ∀ (n : Nat) {y : List Int}, y ∈ pixels s → gridDistance y x ≤ n → Reach false s kernel x n y := by
      intro n
      induction n with
      | zero =>
        intro y hy hd
        by_cases hxy : y = x
        · subst hxy; exact .here _
        obtain ⟨d, -, -, -, h⟩ := toward (mem_pixels.1 hy) (mem_pixels.1 hx) hxy
        omega
      | succ n ih =>
        intro y hy hd
        by_cases hxy : x = y
        · subst hxy; exact .here _
        rw [gridDistance_comm] at hd
        obtain ⟨d, l1, l2, hin, h⟩ := toward (mem_pixels.1 hx) (mem_pixels.1 hy) hxy
        have hr := ih (mem_pixels.2 hin) (by rw [gridDistance_comm]; omega)
        have hnd : Offset kernel (neg d) := hk.2 _ (by rw [neg_length, l1]) (by rw [neg_natAbs, l2])
        have e := target_neg (periodic := false) (mem_pixels.1 hy) l1
        have e' : target false s y d = move y d := rfl
        rw [e'] at e
        have := Reach.step _ _ _ hr hnd (by rw [e]; exact hy)
        rwa [e] at this
    exact main n hy (by rw [gridDistance_comm]; exact hd)

theorem hops_iff (hk : Spec.FaceKernel f.shape.length kernel) {x y : List Int} (hx : x ∈ pixels f.shape) {m : Nat} :
    Spec.Hops false f kernel m x y ↔ Spec.HopsGrid f m x y := by
  constructor
  · intro h
    have : y ∈ pixels f.shape ∧ Spec.HopsGrid f m x y := by
      induction h with
      | refl => exact ⟨hx, .refl⟩
      | tail _ h ih => exact ⟨h.1, ih.2.tail ⟨h.1, h.2.1, (reach_iff_distance hk ih.1 h.1).1 h.2.2⟩⟩
    exact this.2
  · intro h
    have : y ∈ pixels f.shape ∧ Spec.Hops false f kernel m x y := by
      induction h with
      | refl => exact ⟨hx, .refl⟩
      | tail _ h ih => exact ⟨h.1, ih.2.tail ⟨h.1, h.2.1, (reach_iff_distance hk ih.1 h.1).2 h.2.2⟩⟩
    exact this.2

/-- C129 without periodicity: the hops are by the distance along the axes. -/
theorem C129_distance (dbg dbg' : Bool) {n : Nat} (hn : 1 ≤ f.shape.length) (a : SameArgs false f kernel)
    (hk : Spec.FaceKernel f.shape.length kernel) (hsmall : f.shape.prod < 2 ^ 62) :
    ∃ r labels, dilateSame dbg f kernel n false = ok r ∧ clusters dbg' f.shape r.toList false = ok labels ∧
      ∀ x y, Labelled f x → Labelled f y →
        (labels.getD (flat f.shape x).toNat 0 = labels.getD (flat f.shape y).toNat 0 ↔
          Spec.HopsGrid f (2 * n + 1) x y) := by
  obtain ⟨r, labels, e1, e2, h, -⟩ := C129_gap dbg dbg' (n := n) hn a hk hsmall
  exact ⟨r, labels, e1, e2, fun x y hx hy => by rw [h x y hx hy, hops_iff hk hx.1]⟩

theorem nearest_face {n : Nat} (h1 : 1 ≤ n) (h2 : n ≤ 2) {k : Nd Int} (hk : ∀ d, Offset k d ↔ NearestStep n d) :
    Spec.FaceKernel n k := by
  constructor
  · intro d hd
    obtain ⟨l, hb, h0⟩ := (hk d).1 hd
    refine ⟨l, ?_⟩
    rcases (by omega : n = 1 ∨ n = 2) with rfl | rfl
    · obtain ⟨i, rfl⟩ := List.length_eq_one_iff.1 l
      have := hb i (by simp)
      simp only [List.map_cons, List.map_nil, List.sum_cons, List.sum_nil]
      omega
    · obtain ⟨i, j, rfl⟩ := List.length_eq_two.1 l
      have := hb i (by simp)
      have := hb j (by simp)
      simp only [List.mem_cons, List.not_mem_nil, or_false] at h0
      simp only [List.map_cons, List.map_nil, List.sum_cons, List.sum_nil]
      omega
  · rintro d rfl hd
    exact (hk d).2 (nearestStep_of_one hd)

/-- C129 with the default kernel of `dilate`, in one and two dimensions. (In three dimensions the default
kernel of `dilate` also steps across edges, that of `clusters` does not.) -/
theorem C129_default (dbg dbg' : Bool) {n : Nat} (hn : 1 ≤ f.shape.length) (hn' : f.shape.length ≤ 2)
    (h0 : 0 ∉ f.shape) (hf : ∀ x ∈ pixels f.shape, 0 ≤ val f x) (hsmall : f.shape.prod < 2 ^ 62) :
    ∃ kernel r labels, Spec.FaceKernel f.shape.length kernel ∧ dilateNearestSame dbg f n periodic = ok r ∧
      clusters dbg' f.shape r.toList periodic = ok labels ∧
      (∀ x y, Labelled f x → Labelled f y →
        (labels.getD (flat f.shape x).toNat 0 = labels.getD (flat f.shape y).toNat 0 ↔
          Spec.Hops periodic f kernel (2 * n + 1) x y)) ∧
      (periodic = false → ∀ x y, Labelled f x → Labelled f y →
        (labels.getD (flat f.shape x).toNat 0 = labels.getD (flat f.shape y).toNat 0 ↔
          Spec.HopsGrid f (2 * n + 1) x y)) := by
  obtain ⟨K, eK, sK, mK, oK⟩ := nearest_facts dbg hn (by omega : f.shape.length ≤ 3)
  have hl : Legal periodic f.shape K.shape := by rw [sK]; exact nearest_legal rfl (by omega) h0
  have hk := nearest_face hn hn' oK
  obtain ⟨r, labels, e1, e2, h, -⟩ := C129_gap dbg dbg' (n := n) hn ⟨hl, h0, mK, hf⟩ hk hsmall
  refine ⟨K, r, labels, hk, ?_, e2, h, ?_⟩
  · unfold dilateSame at e1
    unfold dilateNearestSame
    simp only [eK, ok_bind]
    exact e1
  · rintro rfl x y hx hy
    rw [h x y hx hy, hops_iff hk hx.1]

/-! ### The hypotheses are met -/

private def gaps : Nd Int := Nd.ofList [1, 12] [1, 0, 0, 0, 1, 0, 0, 0, 0, 0, 2, 0]
private def cross : Nd Int := Nd.ofList [3, 3] [0, 1, 0, 1, 0, 1, 0, 1, 0]

example : SameArgs true gaps cross ∧ SameArgs false gaps cross ∧ 1 ≤ gaps.shape.length ∧ gaps.shape.prod < 2 ^ 62 := by
  refine ⟨⟨⟨?_, ?_, ?_, ?_⟩, ?_, ?_, ?_⟩, ⟨⟨?_, ?_, ?_, ?_⟩, ?_, ?_, ?_⟩, ?_, ?_⟩ <;>
    first | decide | (unfold IsMask; decide) | (unfold Fits; decide)

/-- The cross without its center steps across faces. -/
example : Spec.FaceKernel 2 cross := by
  constructor
  · rintro d ⟨i, hi, hv, rfl⟩
    revert i
    decide
  · intro d hd h1
    obtain ⟨i, j, rfl⟩ := List.length_eq_two.1 hd
    simp only [List.map_cons, List.map_nil, List.sum_cons, List.sum_nil] at h1
    have key : (i, j) = (1, 0) ∨ (i, j) = (-1, 0) ∨ (i, j) = (0, 1) ∨ (i, j) = (0, -1) := by
      simp only [Prod.mk.injEq]; omega
    simp only [Prod.mk.injEq] at key
    rcases key with ⟨rfl, rfl⟩ | ⟨rfl, rfl⟩ | ⟨rfl, rfl⟩ | ⟨rfl, rfl⟩ <;> unfold Offset <;> decide

/-- Pixels at a distance of 4 are not joined by one iteration and are by two; the periodic image joins the pixel
at a distance of 2 across the edge. -/
example : ((dilateNearestSame true gaps 1 false).bind fun r => clusters true [1, 12] r.toList false) =
      ok [1, 1, 0, 2, 2, 2, 0, 0, 0, 3, 3, 3] ∧
    ((dilateNearestSame true gaps 2 false).bind fun r => clusters true [1, 12] r.toList false) =
      ok [1, 1, 1, 1, 1, 1, 1, 0, 2, 2, 2, 2] ∧
    ((dilateNearestSame true gaps 1 true).bind fun r => clusters true [1, 12] r.toList true) =
      ok [1, 1, 0, 2, 2, 2, 0, 0, 0, 1, 1, 1] := by decide +kernel

end Verif.Props
