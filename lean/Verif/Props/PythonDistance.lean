import Verif.Model.PythonDistance
import Verif.Props.Moments

/-! # Distances in Python (C134) -/

namespace Verif.Props

open Verif Outcome Spec Nd Ens

namespace Spec

open Python.Dist

/-- The arguments of a call of `distance`, with their names: the region of interest, and the sizes of a pixel and the axis
if they are given. -/
def distanceArgs (roi : List Nat) (h : Option (List Num)) (dim : Option Nat) : List (Name × Arg) :=
  (Name.roi, Arg.seq (roi.map fun n : Nat => Num.int n)) :: ((h.map fun l => (Name.h, Arg.seq l)).toList ++
    (dim.map fun n : Nat => (Name.dim, Arg.num (.int n))).toList)

/-- A call passes the first of the arguments by position and the others by name, in any order. -/
def Passes (args : List (Name × Arg)) (pos : List Arg) (kw : List (Name × Arg)) : Prop :=
  ∃ k, pos = (args.take k).map Prod.snd ∧ kw.Perm (args.drop k)

/-- The displacement of a pixel of the region of interest from its center, along an axis, with the sizes of a pixel. -/
def sized (roi : List Nat) (h : Option (List Num)) (i : List Int) (a : Nat) : ℚ :=
  (((displacement roi i).getD a 0 : Int) : ℚ) * match h with
    | none => 1
    | some l => (l.map Num.value).getD a 0

/-- The distance of a pixel of the region of interest to its center: along the axis if it is given, otherwise the root of
the sum of squares. -/
def pixelDistance (pow05 : ℚ → ℚ) (roi : List Nat) (h : Option (List Num)) (dim : Option Nat) (i : List Int) : ℚ :=
  match dim with
  | some a => sized roi h i a
  | none => pow05 ((List.range roi.length).map fun a => sized roi h i a ^ 2).sum

/-- The array of the distances. -/
def IsDistance (pow05 : ℚ → ℚ) (roi : List Nat) (h : Option (List Num)) (dim : Option Nat) (D : Nd ℚ) : Prop :=
  D.shape = roi ∧ ∀ i, InBox roi i → val D i = pixelDistance pow05 roi h dim i

/-- Sensible arguments of `distance`. -/
structure DistanceOk (roi : List Nat) (h : Option (List Num)) (dim : Option Nat) : Prop where
  rank : roi.length ≤ 3
  pos : 0 ∉ roi
  small : ∀ n ∈ roi, n < 18446744073709551616
  sizes : ∀ l ∈ h, l.length = roi.length
  axis : ∀ a ∈ dim, a < roi.length

end Spec

open Spec Python.Dist

private theorem bind_perm {kw kw' : List (Name × Arg)} (hn : (kw.map Prod.fst).Nodup) (h : kw.Perm kw') :
    ∀ (ps : List Par) (pos : List Arg), bindPars ps pos kw = bindPars ps pos kw' := by
  intro ps
  induction ps generalizing kw kw' with
  | nil =>
    intro pos
    cases pos with
    | nil =>
      unfold bindPars
      have : kw.isEmpty = kw'.isEmpty := by
        rw [Bool.eq_iff_iff, List.isEmpty_iff, List.isEmpty_iff]
        exact ⟨fun e => (e ▸ h).nil_eq.symm, fun e => (e ▸ h).eq_nil⟩
      rw [this]
    | cons a as => rfl
  | cons p ps ih =>
    intro pos
    cases pos with
    | cons a as =>
      unfold bindPars
      rw [ih hn h]
    | nil =>
      have key : ∀ {l : List (Name × Arg)}, (l.map Prod.fst).Nodup → ∀ q,
          l.find? (fun q => some q.1 = p.name) = some q ↔ q ∈ l ∧ some q.1 = p.name := by
        intro l hl q
        refine ⟨fun e => ⟨List.mem_of_find?_eq_some e, by simpa using List.find?_some e⟩, fun ⟨h1, h2⟩ => ?_⟩
        cases e : l.find? (fun q => some q.1 = p.name) with
        | none =>
          have := List.find?_eq_none.1 e q h1
          simp only [decide_eq_true_eq] at this
          exact absurd h2 this
        | some r =>
          have hr : r ∈ l := List.mem_of_find?_eq_some e
          have hr' : some r.1 = p.name := by simpa using List.find?_some e
          rw [List.inj_on_of_nodup_map hl hr h1 (Option.some.inj (by rw [hr', h2]))]
      have e : kw.find? (fun q => some q.1 = p.name) = kw'.find? (fun q => some q.1 = p.name) := by
        have hn' : (kw'.map Prod.fst).Nodup := (h.map _).nodup_iff.1 hn
        refine Option.ext fun q => ?_
        rw [key hn, key hn', h.mem_iff]
      unfold bindPars
      rw [e]
      cases kw'.find? (fun q => some q.1 = p.name) with
      | some q =>
        dsimp only
        rw [ih (hn.sublist (List.filter_sublist.map _)) (h.filter _)]
      | none => rfl

private theorem invoke_perm (l : List Signature) {kw kw' : List (Name × Arg)} (hn : (kw.map Prod.fst).Nodup)
    (h : kw.Perm kw') (pos : List Arg) : invoke l pos kw = invoke l pos kw' := by
  have e : ∀ c, Signature.attempt c pos kw = Signature.attempt c pos kw' := by
    intro c
    funext s
    unfold Signature.attempt
    rw [bind_perm hn h]
  unfold invoke
  rw [e, e]

private theorem args_nodup (roi : List Nat) (h : Option (List Num)) (dim : Option Nat) :
    ((distanceArgs roi h dim).map Prod.fst).Nodup := by
  rcases h with _ | l <;> rcases dim with _ | a <;> simp [distanceArgs]

/-- The function of C++ that is meant. -/
private def cpp (pow05 : ℚ → ℚ) (dbg : Bool) (roi : List Nat) (h : Option (List Num)) (dim : Option Nat) :
    Outcome (Nd ℚ) :=
  match h, dim with
  | none, none => Api.distance pow05 dbg roi
  | none, some a => Api.distanceAxis ℚ dbg roi a
  | some l, none => Api.distanceH pow05 dbg roi (l.map Num.value)
  | some l, some a => Api.distanceHAxis dbg roi (l.map Num.value) a

private theorem isSize_int {n : Nat} (h : n < 18446744073709551616) : Num.isSize (.int n) = true := by
  simp only [Num.isSize, Bool.and_eq_true, decide_eq_true_eq]
  omega

private theorem call_of (pow05 : ℚ → ℚ) (dbg : Bool) {R : Arg} (r1 : ∀ c, Param.accepts c .sizes R = true)
    {H A : Option Arg} (hH : ∀ l ∈ H, Param.accepts true .doubles l = true ∧ ∀ c, Param.accepts c .size l = false)
    (hA : ∀ a ∈ A, ∀ c, Param.accepts c .size a = true ∧ Param.accepts c .doubles a = false) (k : Nat)
    {args : List (Name × Arg)}
    (e : args = (Name.roi, R) :: ((H.map fun l => (Name.h, l)).toList ++ (A.map fun a => (Name.dim, a)).toList)) :
    invoke [distance1 pow05 dbg, distance2 dbg, distance3 pow05 dbg, distance4 dbg] ((args.take k).map Prod.snd)
      (args.drop k) =
      match H, A with
      | none, none => Api.distance pow05 dbg R.sizes
      | none, some a => Api.distanceAxis ℚ dbg R.sizes a.size
      | some l, none => Api.distanceH pow05 dbg R.sizes l.doubles
      | some l, some a => Api.distanceHAxis dbg R.sizes l.doubles a.size := by
  subst e
  rcases H with _ | l <;> rcases A with _ | a
  · rcases k with _ | _ | k <;>
    simp [invoke, List.findSome?, Signature.attempt, distance1, distance2, distance3, distance4, bindPars, r1]
  · have a1 := hA a rfl
    rcases k with _ | _ | _ | k <;>
    simp [invoke, List.findSome?, Signature.attempt, distance1, distance2, distance3, distance4, bindPars, r1, a1]
  · have l1 := hH l rfl
    by_cases h3 : Param.accepts false .doubles l = true <;>
    rcases k with _ | _ | _ | k <;>
    simp [invoke, List.findSome?, Signature.attempt, distance1, distance2, distance3, distance4, bindPars, r1, l1, h3]
  · have a1 := hA a rfl
    have l1 := hH l rfl
    by_cases h3 : Param.accepts false .doubles l = true <;>
    rcases k with _ | _ | _ | _ | k <;>
    simp [invoke, List.findSome?, Signature.attempt, distance1, distance2, distance3, distance4, bindPars, r1, a1, l1, h3]

private theorem accepts_seq (l : List Num) :
    Param.accepts true .doubles (.seq l) = true ∧ ∀ c, Param.accepts c .size (.seq l) = false := by
  refine ⟨?_, fun c => by simp [Param.accepts]⟩
  simp only [Param.accepts, List.all_eq_true]
  rintro (n | x) _ <;> rfl

private theorem accepts_num {n : Nat} (h : n < 18446744073709551616) (c : Bool) :
    Param.accepts c .size (.num (.int n)) = true ∧ Param.accepts c .doubles (.num (.int n)) = false := by
  refine ⟨?_, by simp [Param.accepts]⟩
  simp only [Param.accepts]
  exact isSize_int h

private theorem accepts_roi {roi : List Nat} (h : ∀ n ∈ roi, n < 18446744073709551616) (c : Bool) :
    Param.accepts c .sizes (.seq (roi.map fun n : Nat => Num.int n)) = true := by
  simp only [Param.accepts, List.all_eq_true, List.mem_map]
  rintro x ⟨n, hn, rfl⟩
  exact isSize_int (h n hn)

private theorem sizes_roi (roi : List Nat) : Arg.sizes (.seq (roi.map fun n : Nat => Num.int n)) = roi := by
  simp [Arg.sizes, Num.nat, Function.comp_def]

private theorem size_num (n : Nat) : Arg.size (.num (.int n)) = n := by
  simp [Arg.size, Num.nat]

private theorem distance_cpp (pow05 : ℚ → ℚ) (dbg : Bool) {roi : List Nat} {h : Option (List Num)} {dim : Option Nat}
    (hs : ∀ n ∈ roi, n < 18446744073709551616) (hd : ∀ a ∈ dim, a < 18446744073709551616) {pos : List Arg}
    {kw : List (Name × Arg)} (hp : Passes (distanceArgs roi h dim) pos kw) :
    Python.Dist.distance pow05 dbg pos kw = cpp pow05 dbg roi h dim := by
  obtain ⟨k, rfl, hkw⟩ := hp
  unfold Python.Dist.distance
  rw [← invoke_perm _ ((args_nodup roi h dim).sublist ((List.drop_sublist k _).map _)) hkw.symm]
  have e := call_of pow05 dbg (accepts_roi hs) (H := h.map Arg.seq) (A := dim.map fun n : Nat => Arg.num (.int n))
    (by rintro l hl; obtain ⟨l, -, rfl⟩ := Option.mem_map.1 hl; exact accepts_seq l)
    (by rintro a ha; obtain ⟨a, hb, rfl⟩ := Option.mem_map.1 ha; exact accepts_num (hd a hb)) k
    (args := distanceArgs roi h dim) (by simp [distanceArgs, Function.comp_def])
  rw [e]
  rcases h with _ | l <;> rcases dim with _ | a
  · simp only [Option.map_none, sizes_roi, cpp]
  · simp only [Option.map_none, Option.map_some, sizes_roi, size_num, cpp]
  · simp only [Option.map_none, Option.map_some, sizes_roi, cpp, Arg.doubles]
  · simp only [Option.map_some, sizes_roi, size_num, cpp, Arg.doubles]

/-- **C134**: `distance` in Python, with the region of interest, the sizes of a pixel and the axis passed by position or by
name in any order, gives the distances of the pixels of the region of interest to its center. -/
theorem C134_distance (pow05 : ℚ → ℚ) (dbg : Bool) {roi : List Nat} {h : Option (List Num)} {dim : Option Nat}
    (ha : DistanceOk roi h dim) {pos : List Arg} {kw : List (Name × Arg)}
    (hp : Passes (distanceArgs roi h dim) pos kw) :
    ∃ D, Python.Dist.distance pow05 dbg pos kw = ok D ∧ IsDistance pow05 roi h dim D := by
  rw [distance_cpp pow05 dbg ha.small (fun a e => by have := ha.axis a e; have := ha.rank; omega) hp]
  rcases h with _ | l <;> rcases dim with _ | a
  · obtain ⟨D, e1, e2, e3⟩ := C33_distance pow05 dbg ha.rank ha.pos
    refine ⟨D, e1, e2, fun i hi => ?_⟩
    rw [e3 i hi]
    simp [pixelDistance, sized]
  · obtain ⟨D, e1, e2, e3⟩ := C33_axis (K := ℚ) dbg ha.rank ha.pos (ha.axis a rfl)
    refine ⟨D, e1, e2, fun i hi => ?_⟩
    rw [e3 i hi]
    simp [pixelDistance, sized]
  · obtain ⟨D, e1, e2, e3⟩ := C33_distance_h pow05 dbg ha.rank ha.pos (h := l.map Num.value)
      (by rw [List.length_map]; exact ha.sizes l rfl)
    exact ⟨D, e1, e2, fun i hi => e3 i hi⟩
  · obtain ⟨D, e1, e2, e3⟩ := C33_axis_h (K := ℚ) dbg ha.rank ha.pos (h := l.map Num.value)
      (by rw [List.length_map]; exact ha.sizes l rfl) (ha.axis a rfl)
    exact ⟨D, e1, e2, fun i hi => e3 i hi⟩

/-- `distance([3, 4], dim=1, h=[0.5, 2])`. -/
example : DistanceOk [3, 4] (some [.float (1 / 2), .int 2]) (some 1) ∧
    Passes (distanceArgs [3, 4] (some [.float (1 / 2), .int 2]) (some 1)) [.seq [.int 3, .int 4]]
      [(.dim, .num (.int 1)), (.h, .seq [.float (1 / 2), .int 2])] :=
  ⟨⟨by simp, by simp, by simp, by simp, by simp⟩, 1, rfl, List.Perm.swap _ _ _⟩

/-- What is accepted and how: the arguments follow from the positional ones and the names. -/
private theorem bind_spec : ∀ (ps : List Par) (names : List Name) (pos : List Arg) (kw : List (Name × Arg)) (args : List Arg),
    ps.map Par.name = names.map some → (kw.map Prod.fst).Nodup → bindPars ps pos kw = some args →
    args.length = ps.length ∧ Passes (names.zip args) pos kw := by
  intro ps
  induction ps with
  | nil =>
    intro names pos kw args hn hk e
    have : names = [] := by simpa using hn.symm
    subst this
    cases pos with
    | cons a as => simp [bindPars] at e
    | nil =>
      simp only [bindPars] at e
      split at e
      · rename_i h
        have := List.isEmpty_iff.1 h
        subst this
        simp only [Option.some.injEq] at e
        subst e
        exact ⟨rfl, 0, rfl, .nil⟩
      · simp at e
  | cons p ps ih =>
    intro names pos kw args hn hk e
    match names, hn with
    | n :: names, hn =>
      simp only [List.map_cons, List.cons.injEq] at hn
      obtain ⟨hn1, hn2⟩ := hn
      cases pos with
      | cons a as =>
        simp only [bindPars, Option.map_eq_some_iff] at e
        obtain ⟨r, e1, rfl⟩ := e
        obtain ⟨h1, k, h2, h3⟩ := ih names as kw r hn2 hk e1
        refine ⟨by simp [h1], k + 1, ?_, ?_⟩
        · simp [h2]
        · simpa using h3
      | nil =>
        simp only [bindPars] at e
        split at e
        · rename_i q hq
          simp only [Option.map_eq_some_iff] at e
          obtain ⟨r, e1, rfl⟩ := e
          have hq1 : q ∈ kw := List.mem_of_find?_eq_some hq
          have hq2 : q.1 = n := by
            have := List.find?_some hq
            rw [hn1] at this
            simpa using this
          obtain ⟨h1, k, h2, h3⟩ := ih names [] _ r hn2 (hk.sublist (List.filter_sublist.map _)) e1
          refine ⟨by simp [h1], 0, rfl, ?_⟩
          have h4 : (names.zip r).drop k = names.zip r := by
            have : (names.zip r).take k = [] := by
              have := congrArg List.length h2
              rw [List.length_map] at this
              exact List.length_eq_zero_iff.1 this.symm
            conv_rhs => rw [← List.take_append_drop k (names.zip r), this]
            rfl
          rw [h4] at h3
          show kw.Perm ((n, q.2) :: names.zip r)
          refine (List.perm_cons_erase hq1).trans ?_
          have : (n, q.2) = q := by rw [← hq2]
          rw [this]
          refine List.Perm.cons q (List.Perm.trans ?_ h3)
          refine List.Perm.of_eq ?_
          rw [List.Nodup.erase_eq_filter (List.Nodup.of_map _ hk)]
          refine List.filter_congr fun x hx => ?_
          rw [hn1]
          by_cases hxq : x = q
          · subst hxq
            simp [hq2]
          · have : x.1 ≠ n := fun hxn => hxq (List.inj_on_of_nodup_map hk hx hq1 (by rw [hxn, hq2]))
            simp [hxq, this]
        · simp at e

private theorem attempt_spec {c : Bool} {pos : List Arg} {kw : List (Name × Arg)} {s : Signature} {r : Outcome (Nd ℚ)}
    (names : List Name) (hn : s.pars.map Par.name = names.map some) (hk : (kw.map Prod.fst).Nodup)
    (h : s.attempt c pos kw = some r) :
    ∃ args, args.length = s.pars.length ∧ Passes (names.zip args) pos kw ∧
      (List.zipWith (fun (p : Par) a => p.type.accepts c a) s.pars args).all id = true := by
  unfold Signature.attempt at h
  split at h
  · simp at h
  · rename_i args e
    obtain ⟨h1, h2⟩ := bind_spec _ names _ _ _ hn hk e
    split at h
    · rename_i h3
      exact ⟨args, h1, h2, h3⟩
    · simp at h

private theorem of_sizes {c : Bool} {a : Arg} (h : Param.accepts c .sizes a = true) :
    ∃ roi : List Nat, a = .seq (roi.map fun n : Nat => Num.int n) ∧ ∀ n ∈ roi, n < 18446744073709551616 := by
  rcases a with x | l
  · simp [Param.accepts] at h
  · simp only [Param.accepts, List.all_eq_true] at h
    refine ⟨l.map Num.nat, ?_, ?_⟩
    · rw [List.map_map]
      congr 1
      symm
      refine (List.map_congr_left (g := id) ?_).trans (List.map_id l)
      rintro (n | x) hx
      · have := h _ hx
        simp only [Num.isSize, Bool.and_eq_true, decide_eq_true_eq] at this
        simp only [Function.comp_apply, Num.nat, id, Num.int.injEq]
        omega
      · exact absurd (h _ hx) (by simp [Num.isSize])
    · intro n hn
      obtain ⟨x, hx, rfl⟩ := List.mem_map.1 hn
      rcases x with n | x
      · have := h _ hx
        simp only [Num.isSize, Bool.and_eq_true, decide_eq_true_eq] at this
        simp only [Num.nat]
        omega
      · simp [Num.nat]

private theorem of_size {c : Bool} {a : Arg} (h : Param.accepts c .size a = true) :
    ∃ n : Nat, a = .num (.int n) ∧ n < 18446744073709551616 := by
  rcases a with (n | x) | l
  · simp only [Param.accepts, Num.isSize, Bool.and_eq_true, decide_eq_true_eq] at h
    refine ⟨n.toNat, ?_, by omega⟩
    congr
    omega
  · simp [Param.accepts, Num.isSize] at h
  · simp [Param.accepts] at h

private theorem of_doubles {c : Bool} {a : Arg} (h : Param.accepts c .doubles a = true) : ∃ l, a = .seq l := by
  rcases a with x | l
  · simp [Param.accepts] at h
  · exact ⟨l, rfl⟩

/-- **C134**: other calls are refused: a call of `distance` in Python throws an exception unless its arguments are a region
of interest, of integers that are not negative and fit in 64 bits, and if given a sequence of numbers and one such
integer. -/
theorem C134_others (pow05 : ℚ → ℚ) (dbg : Bool) {pos : List Arg} {kw : List (Name × Arg)}
    (hk : (kw.map Prod.fst).Nodup) :
    Python.Dist.distance pow05 dbg pos kw = throws ∨
      ∃ roi h dim, Passes (distanceArgs roi h dim) pos kw ∧ (∀ n ∈ roi, n < 18446744073709551616) ∧
        ∀ a ∈ dim, a < 18446744073709551616 := by
  have key : ∀ c, ∀ s ∈ [distance1 pow05 dbg, distance2 dbg, distance3 pow05 dbg, distance4 dbg],
      ∀ r, s.attempt c pos kw = some r → ∃ roi h dim, Passes (distanceArgs roi h dim) pos kw ∧ (∀ n ∈ roi, n < 18446744073709551616) ∧
          ∀ a ∈ dim, a < 18446744073709551616 := by
    intro c s hs r h
    simp only [List.mem_cons, List.not_mem_nil, or_false] at hs
    rcases hs with rfl | rfl | rfl | rfl
    · obtain ⟨args, h1, h2, h3⟩ := attempt_spec [.roi] rfl hk h
      match args, h1 with
      | [a], _ =>
        simp only [distance1, List.zipWith_cons_cons, List.zipWith_nil_left, List.all_cons, id, List.all_nil,
          Bool.and_true] at h3
        obtain ⟨roi, rfl, hs⟩ := of_sizes h3
        exact ⟨roi, none, none, h2, hs, by simp⟩
    · obtain ⟨args, h1, h2, h3⟩ := attempt_spec [.roi, .dim] rfl hk h
      match args, h1 with
      | [a, b], _ =>
        simp only [distance2, List.zipWith_cons_cons, List.zipWith_nil_left, List.all_cons, id, List.all_nil,
          Bool.and_true, Bool.and_eq_true] at h3
        obtain ⟨roi, rfl, hs⟩ := of_sizes h3.1
        obtain ⟨n, rfl, hd⟩ := of_size h3.2
        exact ⟨roi, none, some n, h2, hs, by simpa using hd⟩
    · obtain ⟨args, h1, h2, h3⟩ := attempt_spec [.roi, .h] rfl hk h
      match args, h1 with
      | [a, b], _ =>
        simp only [distance3, List.zipWith_cons_cons, List.zipWith_nil_left, List.all_cons, id, List.all_nil,
          Bool.and_true, Bool.and_eq_true] at h3
        obtain ⟨roi, rfl, hs⟩ := of_sizes h3.1
        obtain ⟨l, rfl⟩ := of_doubles h3.2
        exact ⟨roi, some l, none, h2, hs, by simp⟩
    · obtain ⟨args, h1, h2, h3⟩ := attempt_spec [.roi, .h, .dim] rfl hk h
      match args, h1 with
      | [a, b, d], _ =>
        simp only [distance4, List.zipWith_cons_cons, List.zipWith_nil_left, List.all_cons, id, List.all_nil,
          Bool.and_true, Bool.and_eq_true] at h3
        obtain ⟨roi, rfl, hs⟩ := of_sizes h3.1
        obtain ⟨l, rfl⟩ := of_doubles h3.2.1
        obtain ⟨n, rfl, hd⟩ := of_size h3.2.2
        exact ⟨roi, some l, some n, h2, hs, by simpa using hd⟩
  unfold Python.Dist.distance invoke
  cases e : List.findSome? (Signature.attempt false pos kw)
      [distance1 pow05 dbg, distance2 dbg, distance3 pow05 dbg, distance4 dbg] with
  | some r =>
    obtain ⟨s, hs, h⟩ := List.exists_of_findSome?_eq_some e
    exact Or.inr (key false s hs r h)
  | none =>
    cases e : List.findSome? (Signature.attempt true pos kw)
        [distance1 pow05 dbg, distance2 dbg, distance3 pow05 dbg, distance4 dbg] with
    | some r =>
      obtain ⟨s, hs, h⟩ := List.exists_of_findSome?_eq_some e
      exact Or.inr (key true s hs r h)
    | none => exact Or.inl rfl

/-- `distance([3, 4], dim=1.0)`: the names differ, and an exception is thrown. -/
example : ([(Name.dim, Arg.num (.float 1))].map Prod.fst).Nodup ∧
    Python.Dist.distance id true [.seq [.int 3, .int 4]] [(.dim, .num (.float 1))] = throws := by
  refine ⟨by simp, ?_⟩
  simp [Python.Dist.distance, invoke, List.findSome?, Signature.attempt, distance1, distance2, distance3, distance4, bindPars,
    Param.accepts, Num.isSize]

private theorem bind_unnamed {kw : List (Name × Arg)} (hk : kw ≠ []) : ∀ (ps : List Par) (pos : List Arg),
    (∀ p ∈ ps, p.name = none) → bindPars ps pos kw = none := by
  intro ps
  induction ps with
  | nil =>
    intro pos _
    cases pos with
    | nil => simp [bindPars, hk]
    | cons a as => rfl
  | cons p ps ih =>
    intro pos h
    cases pos with
    | nil =>
      have : kw.find? (fun q => some q.1 = p.name) = none := by simp [h p (by simp)]
      simp only [bindPars, this]
    | cons a as =>
      simp only [bindPars, ih as fun q hq => h q (by simp [hq]), Option.map_none]

private theorem method_of (pow05 : ℚ → ℚ) (dbg : Bool) (E : Ensemble ℚ) {H A : Option Arg}
    (hH : ∀ l ∈ H, Param.accepts true .doubles l = true ∧ ∀ c, Param.accepts c .size l = false)
    (hA : ∀ a ∈ A, ∀ c, Param.accepts c .size a = true ∧ Param.accepts c .doubles a = false) :
    Python.Dist.method pow05 dbg E (H.toList ++ A.toList) [] =
      match H, A with
      | none, none => Ens.distance pow05 dbg E
      | none, some a => Ens.distanceAxis dbg E a.size
      | some l, none => Ens.distanceH pow05 dbg E l.doubles
      | some l, some a => Ens.distanceHAxis dbg E l.doubles a.size := by
  unfold Python.Dist.method
  rcases H with _ | l <;> rcases A with _ | a
  · simp [invoke, List.findSome?, Signature.attempt, method1, method2, method3, method4, bindPars]
  · have a1 := hA a rfl
    simp [invoke, List.findSome?, Signature.attempt, method1, method2, method3, method4, bindPars, a1]
  · have l1 := hH l rfl
    by_cases h3 : Param.accepts false .doubles l = true <;>
    simp [invoke, List.findSome?, Signature.attempt, method1, method2, method3, method4, bindPars, l1, h3]
  · have a1 := hA a rfl
    have l1 := hH l rfl
    by_cases h3 : Param.accepts false .doubles l = true <;>
    simp [invoke, List.findSome?, Signature.attempt, method1, method2, method3, method4, bindPars, a1, l1, h3]

private theorem cpp_method (pow05 : ℚ → ℚ) (dbg : Bool) {roi : List Nat} (hr : roi.length ≤ 3) (h0 : 0 ∉ roi)
    (h : Option (List Num)) (dim : Option Nat) (hd : ∀ a ∈ dim, a < 18446744073709551616) (periodic variance : Bool) :
    Python.Dist.method pow05 dbg (fresh ℚ roi periodic variance .unset) ((distanceArgs roi h dim).tail.map Prod.snd) [] =
      cpp pow05 dbg roi h dim := by
  have e := method_of pow05 dbg (fresh ℚ roi periodic variance .unset) (H := h.map Arg.seq)
    (A := dim.map fun n : Nat => Arg.num (.int n))
    (by rintro l hl; obtain ⟨l, -, rfl⟩ := Option.mem_map.1 hl; exact accepts_seq l)
    (by rintro a ha; obtain ⟨a, hb, rfl⟩ := Option.mem_map.1 ha; exact accepts_num (hd a hb))
  have e0 : (distanceArgs roi h dim).tail.map Prod.snd =
      (h.map Arg.seq).toList ++ (dim.map fun n : Nat => Arg.num (.int n)).toList := by
    rcases h with _ | l <;> rcases dim with _ | a <;> rfl
  rw [e0, e]
  rcases h with _ | l <;> rcases dim with _ | a
  · rw [cpp, Api.distance, make_ok dbg hr h0, ok_bind]
    rfl
  · rw [cpp, Api.distanceAxis, make_ok dbg hr h0, ok_bind]
    simp only [Option.map_none, Option.map_some, size_num]
    rfl
  · rw [cpp, Api.distanceH, make_ok dbg hr h0, ok_bind]
    rfl
  · rw [cpp, Api.distanceHAxis, make_ok dbg hr h0, ok_bind]
    simp only [Option.map_some, size_num]
    rfl

/-- **C134**: the method `distance` of an ensemble gives the same distances, with positional arguments. With named
arguments it throws an exception, whatever they are: its parameters have no names. -/
theorem C134_method (pow05 : ℚ → ℚ) (dbg : Bool) {roi : List Nat} {h : Option (List Num)} {dim : Option Nat}
    (ha : DistanceOk roi h dim) (periodic variance : Bool) :
    ∃ E, Python.Ensemble.init dbg roi periodic variance = ok E ∧
      (∃ D, Python.Dist.method pow05 dbg E ((distanceArgs roi h dim).tail.map Prod.snd) [] = ok D ∧
        IsDistance pow05 roi h dim D) ∧
      ∀ pos kw, kw ≠ [] → Python.Dist.method pow05 dbg E pos kw = throws := by
  have hd : ∀ a ∈ dim, a < 18446744073709551616 := fun a e => by have := ha.axis a e; have := ha.rank; omega
  refine ⟨fresh ℚ roi periodic variance .unset, make_ok dbg ha.rank ha.pos periodic variance, ?_, fun pos kw hk => ?_⟩
  · rw [cpp_method pow05 dbg ha.rank ha.pos h dim hd, ← distance_cpp pow05 dbg ha.small hd ⟨0, rfl, .refl _⟩]
    exact C134_distance pow05 dbg ha ⟨0, rfl, .refl _⟩
  · have key : ∀ c, ∀ s ∈ [method1 pow05 dbg (fresh ℚ roi periodic variance .unset),
        method2 dbg (fresh ℚ roi periodic variance .unset), method3 pow05 dbg (fresh ℚ roi periodic variance .unset),
        method4 dbg (fresh ℚ roi periodic variance .unset)], Signature.attempt c pos kw s = none := by
      intro c s hs
      have : ∀ p ∈ s.pars, p.name = none := by
        simp only [List.mem_cons, List.not_mem_nil, or_false] at hs
        rcases hs with rfl | rfl | rfl | rfl <;> simp [method1, method2, method3, method4]
      simp only [Signature.attempt, bind_unnamed hk s.pars pos this]
    unfold Python.Dist.method invoke
    rw [List.findSome?_eq_none_iff.2 (key false), List.findSome?_eq_none_iff.2 (key true)]

/-- The distances along the first axis of a region of interest of three by four pixels. -/
example : DistanceOk [3, 4] none (some 0) := ⟨by simp, by simp, by simp, by simp, by simp⟩

end Verif.Props
