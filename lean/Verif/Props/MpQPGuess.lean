import Verif.Props.MpQPAllMany
import Verif.Props.MpcExplicitFalse

/- The active set that `explicit_solve` guesses beyond a facet of a region (C145), and the number of regions (C146). -/
namespace Verif.Props
open Finset Verif.MpQP

variable {nu nx : ℕ} {q : MpQP}

/-- inequality `i` of the region says that the multiplier of constraint `k` is not negative, or that constraint `k`, not in the active set, is satisfied -/
def RowOf (q : MpQP) (nu nx : ℕ) (cr : CritReg) (i k : ℕ) : Prop :=
  ∀ (x u p : Vec ℝ), x.n = nx → cr.u x = .ok u → cr.p x = .ok p →
    (Spec.rowVal cr.polyhedron.A i x.e ≤ cr.polyhedron.b.e i ↔
      if k ∈ cr.active_set then 0 ≤ p.e k else q.data.lhs nu nx k u.e x.e ≤ q.data.b.e k)

/-- the elements of the active set once constraint `k` has been added or removed -/
def Switched (a : List ℕ) (k : ℕ) (g : List ℕ) : Prop := ∀ j, j ∈ g ↔ (j ∈ a ∧ j ≠ k) ∨ (j ∉ a ∧ j = k)

theorem switched_unique {a g : List ℕ} {i k : ℕ} (h : Switched a i g) (h' : Switched a k g) : i = k := by
  by_contra hne
  have h1 := h i
  have h2 := h' i
  by_cases hi : i ∈ a
  · have : i ∉ g := fun hg => by rcases h1.1 hg with ⟨-, e⟩ | ⟨e, -⟩ <;> exact e (by first | rfl | exact hi)
    exact this (h2.2 (.inl ⟨hi, hne⟩))
  · have : i ∈ g := h1.2 (.inr ⟨hi, rfl⟩)
    rcases h2.1 this with ⟨e, -⟩ | ⟨-, e⟩
    · exact hi e
    · exact hne e

/-- the inequalities of a region, before and after they are normalized -/
theorem guess_row {a : List ℕ} (hs : q.data.Shape nu nx) {i : ℕ} (hi : i < a.length + (q.inactive a).length) (x : ℕ → ℝ) :
    Spec.rowVal (q.fCr a).polyhedron.A i x ≤ (q.fCr a).polyhedron.b.e i ↔ ∑ j ∈ range nx, (q.fAcr a).e i j * x j ≤ (q.fBcr a).e i := by
  have hnc : (q.fCr a).polyhedron.A.nc = nx := (fCr_inv hs).1
  obtain ⟨n1, n2⟩ := normalize_row (p := q.fPoly a) (i := i) hi
  unfold Spec.rowVal
  rw [hnc]
  have e1 : ∀ j, (q.fCr a).polyhedron.A.e i j = _ := n1
  have e2 : (q.fCr a).polyhedron.b.e i = _ := n2
  simp only [e1, e2]
  by_cases h : vnorm ((q.fPoly a).A.row i) > 1e-7
  · have hpos : 0 < vnorm ((q.fPoly a).A.row i) := lt_trans (by norm_num) h
    simp only [if_pos h]
    have e : ∑ j ∈ range nx, (q.fPoly a).A.e i j / vnorm ((q.fPoly a).A.row i) * x j
        = (∑ j ∈ range nx, (q.fAcr a).e i j * x j) / vnorm ((q.fPoly a).A.row i) := by
      rw [Finset.sum_div]
      exact Finset.sum_congr rfl fun j _ => by
        show (q.fAcr a).e i j / _ * x j = _
        ring
    rw [e, div_le_div_iff_of_pos_right hpos]
    rfl
  · simp only [if_neg h]
    rfl

/-- constraint `k` at position `i` of the active constraints followed by the others gives inequality `i` of the region -/
theorem row_of {a : List ℕ} (hm : q.Made) (hs : q.data.Shape nu nx) (hl : q.data.Licq nu a) {i : ℕ} (hi : i < a.length + (q.inactive a).length) :
    RowOf q nu nx (q.fCr a) i ((a ++ q.inactive a).getD i 0) := by
  intro x u p hx hu hp
  obtain ⟨u', hu', -, hue⟩ := fCr_u (a := a) hm hs hx
  obtain ⟨p', hp', -, hpe⟩ := fCr_p (a := a) hs hx
  rw [hu] at hu'
  rw [hp] at hp'
  cases hu'
  cases hp'
  rw [guess_row hs hi]
  show _ ↔ if _ ∈ a then _ else _
  rcases Nat.lt_or_ge i a.length with h | h
  · have e : (a ++ q.inactive a).getD i 0 = a.getD i 0 := List.getD_append _ _ _ _ h
    have hin : a.getD i 0 ∈ a := by
      rw [List.getD_eq_getElem _ _ h]
      exact List.getElem_mem h
    rw [e, if_pos hin, hpe]
    have := fAcr_mul hs hl x.e h
    constructor <;> intro _ <;> linarith
  · obtain ⟨k, rfl⟩ : ∃ k, i = a.length + k := ⟨i - a.length, by omega⟩
    have e : (a ++ q.inactive a).getD (a.length + k) 0 = (q.inactive a).getD k 0 := by
      rw [List.getD_append_right _ _ _ _ (by omega), Nat.add_sub_cancel_left]
    have hin := (inactive_getD (q := q) (a := a) (k := k) (by omega)).2
    rw [e, if_neg hin]
    have := fAcr_con (a := a) hm hs x.e k
    have e3 : q.data.lhs nu nx ((q.inactive a).getD k 0) u.e x.e = q.data.lhs nu nx ((q.inactive a).getD k 0) (q.fu' a nx x.e) x.e := by
      unfold Spec.ParamQP.lhs
      congr 1
      exact Finset.sum_congr rfl fun j _ => by rw [hue]
    rw [e3]
    show _ ↔ _ ≤ q.b.e _
    constructor <;> intro _ <;> linarith

/-- C145, what holds: the inequalities of a region are those of the active constraints, in their order, followed by those of the others.  Beyond inequality `i`, the guess is the active set
with *constraint* `i` added or removed.  This is the intended guess, the active set with the constraint `k` of inequality `i` added or removed, exactly if `i = k`, as when
the active constraints are the first ones.  Missing: the right guess for other active sets (false, see `C145_false`). -/
theorem C145_partial (L : Lib) (nu nx : ℕ) (q : MpQP) (hm : q.Made) (hs : q.data.Shape nu nx) (a : List ℕ) (cr : CritReg)
    (hcr : q.explicit_solve_given_active_set a = .ok (some cr)) (step : ℝ) (i : ℕ) (hi : i < q.Au.nr) (x : Vec ℝ) (g : List ℕ)
    (h : beyondFacet L step cr i = .ok (x, g)) :
    ∃ k < q.Au.nr, RowOf q nu nx cr i k ∧ (i < a.length → a[i]? = some k) ∧ (a.length ≤ i → k ∉ a) ∧ g.Pairwise (· < ·) ∧ Switched a i g ∧ (Switched a k g ↔ i = k) ∧
      (a = List.range a.length → i = k) := by
  obtain ⟨ha, hl, rfl⟩ := explicit_cases hm hs hcr
  have hlen : a.length + (q.inactive a).length = q.Au.nr := length_inactive hs ha (licq_nodup hl)
  have hg : g = (symmDiff a.toFinset {i}).sort (· ≤ ·) := by
    unfold beyondFacet at h
    obtain ⟨c, -, h⟩ := Py.bind_eq_ok h
    cases c with
    | none => cases h
    | some c =>
      obtain ⟨y, -, h⟩ := Py.bind_eq_ok h
      cases h
      rfl
  have hsw : Switched a i g := by
    intro j
    rw [hg, Finset.mem_sort, Finset.mem_symmDiff, List.mem_toFinset, Finset.mem_singleton]
    tauto
  have hk : (a ++ q.inactive a).getD i 0 < q.Au.nr := by
    have hi' : i < (a ++ q.inactive a).length := by rw [List.length_append]; omega
    rw [List.getD_eq_getElem _ _ hi']
    have := List.getElem_mem hi'
    rcases List.mem_append.1 this with h | h
    · exact ha _ h
    · have := (inactive_lt h).1
      rwa [show q.Ax.nr = q.Au.nr from hs.rows] at this
  refine ⟨(a ++ q.inactive a).getD i 0, hk, row_of hm hs hl (by omega), fun hia => ?_, fun hia => ?_, ?_, hsw, ⟨switched_unique hsw, fun e => e ▸ hsw⟩, fun hr => ?_⟩
  · rw [List.getD_append _ _ _ _ hia, List.getD_eq_getElem _ _ hia, List.getElem?_eq_getElem hia]
  · rw [List.getD_append_right _ _ _ _ hia]
    exact (inactive_getD (by omega)).2
  · rw [hg]
    exact Finset.sortedLT_sort _ |>.pairwise
  · obtain ⟨m, rfl⟩ : ∃ m, a = List.range m := ⟨_, hr⟩
    have hm' : m ≤ q.Au.nr := by
      rw [List.length_range] at hlen
      omega
    have : List.range m ++ q.inactive (List.range m) = List.range q.Au.nr := by
      obtain ⟨r, hr'⟩ := Nat.exists_eq_add_of_le hm'
      unfold inactive
      rw [show q.Ax.nr = q.Au.nr from hs.rows, hr', List.range_add, List.filter_append]
      have e1 : (List.range m).filter (fun i => decide (i ∉ List.range m)) = [] := by
        rw [List.filter_eq_nil_iff]
        intro i hi
        simpa using hi
      have e2 : ((List.range r).map (m + ·)).filter (fun i => decide (i ∉ List.range m)) = (List.range r).map (m + ·) := by
        rw [List.filter_eq_self]
        intro i hi
        obtain ⟨k, -, rfl⟩ := List.mem_map.1 hi
        simp
      simp only [e1, e2, List.nil_append]
    rw [this, List.getD_eq_getElem _ _ (by simpa using hi), List.getElem_range]

/-- min 1/2 (u - x)² s.t. -1 ≤ u ≤ 1 -/
def satQP : Spec.ParamQP := ⟨⟨1, 1, fun _ _ => 1⟩, ⟨1, 1, fun _ _ => -1⟩, ⟨1, 1, fun _ _ => 1⟩,
  ⟨1, fun _ => 0⟩, ⟨1, fun _ => 0⟩, 0, ⟨2, 1, fun i _ => if i = 0 then 1 else -1⟩, ⟨2, 1, fun _ _ => 0⟩, ⟨2, fun _ => 1⟩⟩

theorem satQP_shape : satQP.Shape 1 1 := by
  refine ⟨⟨rfl, rfl, fun _ _ _ _ => rfl, ?_⟩, rfl, rfl, rfl, rfl, rfl, rfl, rfl, rfl, rfl, rfl⟩
  rintro x ⟨i, hi, hx⟩
  obtain rfl : i = 0 := by omega
  have := mul_self_pos.2 hx
  simp [satQP]
  nlinarith

theorem satQP_lhs (i : ℕ) (u x : ℕ → ℝ) : satQP.lhs 1 1 i u x = if i = 0 then u 0 else - u 0 := by
  simp only [Spec.ParamQP.lhs, satQP, Finset.sum_range_one]
  split_ifs <;> ring

theorem satQP_lag (u x p : ℕ → ℝ) : satQP.lagrangian 1 1 u x p 0 = u 0 - x 0 + p 0 - p 1 := by
  simp [Spec.ParamQP.lagrangian, satQP, Finset.sum_range_succ]
  ring

theorem satQP_licq {a : List ℕ} (ha : a = [] ∨ a = [0] ∨ a = [1]) : satQP.Licq 1 a := by
  intro w hw k hk
  rcases ha with rfl | rfl | rfl
  · simp at hk
  all_goals
    have := hw 0 (by norm_num)
    simp [satQP] at this
    have hk0 : k = 0 := by simpa using hk
    rw [hk0, this]

theorem satQP_dep : ¬ satQP.Licq 1 [0, 1] := by
  intro h
  have := h (fun _ => 1) (fun j hj => by simp [satQP, Finset.sum_range_succ]) 0 (by norm_num)
  norm_num at this

/-- the region of the second constraint is `x ≤ -1` -/
theorem satQP_region {q : MpQP} (hm : q.Made) (hd : q.data = satQP) :
    (q.fCr [1]).polyhedron.A.e 0 0 = 1 ∧ (q.fCr [1]).polyhedron.b.e 0 = -1 ∧
    (∀ x : ℕ → ℝ, (q.fCr [1]).polyhedron.Mem x ↔ x 0 ≤ -1) ∧ ∀ x : ℕ → ℝ, (q.fCr []).polyhedron.Mem x ↔ -1 ≤ x 0 ∧ x 0 ≤ 1 := by
  have hs : q.data.Shape 1 1 := by rw [hd]; exact satQP_shape
  have hnr : q.Au.nr = 2 := congrArg (fun P : Spec.ParamQP => P.Au.nr) hd
  have hb : ∀ i, q.b.e i = 1 := fun i => congrArg (fun P : Spec.ParamQP => P.b.e i) hd
  have hl : ∀ a : List ℕ, a = [] ∨ a = [0] ∨ a = [1] → q.data.Licq 1 a := fun a ha => by rw [hd]; exact satQP_licq ha
  have v1 : ∀ x : ℕ → ℝ, q.fu' [1] 1 x 0 = -1 ∧ q.fp' [1] 1 x 1 = -1 - x 0 := fun x => by
    obtain ⟨k1, k2⟩ := (fCr_kkt hm hs (a := [1]) (by simp [hnr]) (hl _ (.inr (.inr rfl))) x).2.2 (fun _ => -1) (fun i => if i = 1 then -1 - x 0 else 0)
      (fun j hj => by
        obtain rfl : j = 0 := by omega
        rw [hd, satQP_lag]; norm_num)
      (fun i hi => by
        obtain rfl : i = 1 := by simpa using hi
        rw [hd, satQP_lhs, hb]; norm_num)
      (fun i _ hi => if_neg (by simpa using hi))
    exact ⟨(k1 0 (by norm_num)).symm, by rw [← k2 1 (by omega)]; simp⟩
  have v0 : ∀ x : ℕ → ℝ, q.fu' [] 1 x 0 = x 0 := fun x => by
    obtain ⟨k1, k2⟩ := (fCr_kkt hm hs (a := []) (by simp) (hl _ (.inl rfl)) x).2.2 (fun _ => x 0) (fun i => 0)
      (fun j hj => by
        obtain rfl : j = 0 := by omega
        rw [hd, satQP_lag]; ring)
      (fun i hi => by simp at hi) (fun i _ hi => rfl)
    exact (k1 0 (by norm_num)).symm
  have hrow := fun x : ℝ => fAcr_mul (a := [1]) hs (hl _ (.inr (.inr rfl))) (fun _ => x) (k := 0) (by simp)
  simp only [show ([1] : List ℕ).getD 0 0 = 1 from rfl, v1, Finset.sum_range_one] at hrow
  have e1 := hrow 0
  have e2 := hrow 1
  have a1 : (q.fAcr [1]).e 0 0 = 1 := by linarith
  have a2 : (q.fBcr [1]).e 0 = -1 := by linarith
  have v : vnorm ((q.fPoly [1]).A.row 0) = 1 := by
    unfold vnorm
    rw [show ((q.fPoly [1]).A.row 0).n = 1 from hs.Ax, Finset.sum_range_one, show ((q.fPoly [1]).A.row 0).e 0 = 1 from a1]
    norm_num
  obtain ⟨c1, c2⟩ := normalize_row (p := q.fPoly [1]) (i := 0) (by show 0 < 1 + _; omega)
  have c1' := c1 0
  rw [v, if_pos (by norm_num), div_one] at c1' c2
  refine ⟨c1'.trans a1, c2.trans a2, fun x => ?_, fun x => ?_⟩
  · rw [fCr_mem hm hs (hl _ (.inr (.inr rfl)))]
    constructor
    · intro h
      have := h.1 1 (by simp)
      rw [(v1 x).2] at this
      linarith
    · intro h
      refine ⟨fun i hi => ?_, fun i hi hia => ?_⟩
      · obtain rfl : i = 1 := by simpa using hi
        rw [(v1 x).2]
        linarith
      · obtain rfl : i = 0 := by
          have : i ≠ 1 := by simpa using hia
          omega
        rw [hd, satQP_lhs, if_pos rfl, (v1 x).1, hb]
        norm_num
  · rw [fCr_mem hm hs (hl _ (.inl rfl))]
    constructor
    · intro h
      have h0 := h.2 0 (by omega) (by simp)
      have h1 := h.2 1 (by omega) (by simp)
      rw [hd, satQP_lhs, if_pos rfl, v0, hb] at h0
      rw [hd, satQP_lhs, if_neg (by norm_num), v0, hb] at h1
      constructor <;> linarith
    · intro h
      refine ⟨fun i hi => by simp at hi, fun i hi _ => ?_⟩
      rw [hd, satQP_lhs, v0, hb]
      split_ifs <;> linarith [h.1, h.2]

/-- C145 is false: the program `satQP`, whose regions are intervals with the expected neighbours.  Inequality `0` of the region of `{1}` belongs to constraint `1`, and the points
beyond it are in the region without active constraints, but the guess is `{0, 1}`, constraints that can not be active together. -/
theorem C145_false (L : Lib) : ∃ (q : MpQP) (cr cr' : CritReg), q.Made ∧ q.data.Shape 1 1 ∧ q.explicit_solve_given_active_set [1] = .ok (some cr) ∧
    q.explicit_solve_given_active_set [] = .ok (some cr') ∧ RowOf q 1 1 cr 0 1 ∧ (∀ x : ℕ → ℝ, cr.polyhedron.Mem x ↔ x 0 ≤ -1) ∧
    (∀ x : ℕ → ℝ, cr'.polyhedron.Mem x ↔ -1 ≤ x 0 ∧ x 0 ≤ 1) ∧ q.explicit_solve_given_active_set [0, 1] = .ok none ∧
    ∀ step : ℝ, 0 < step → step ≤ 2 → ∃ x : Vec ℝ, beyondFacet L step cr 0 = .ok (x, [0, 1]) ∧ x.e 0 = -1 + step ∧ cr'.polyhedron.Mem x.e ∧
      ¬ ∃ u, q.data.Feas 1 1 u x.e ∧ ∀ i ∈ [0, 1], q.data.lhs 1 1 i u x.e = q.data.b.e i := by
  obtain ⟨q, -, hm, hd⟩ := init_made satQP_shape
  have hs : q.data.Shape 1 1 := by rw [hd]; exact satQP_shape
  have hnr : q.Au.nr = 2 := congrArg (fun P : Spec.ParamQP => P.Au.nr) hd
  have hl : ∀ a : List ℕ, a = [] ∨ a = [0] ∨ a = [1] → q.data.Licq 1 a := fun a ha => by rw [hd]; exact satQP_licq ha
  obtain ⟨r1, r2, r3, r4⟩ := satQP_region hm hd
  have h1 := explicit_some hm hs (a := [1]) (by simp [hnr]) (hl _ (.inr (.inr rfl)))
  have h0 := explicit_some hm hs (a := []) (by simp) (hl _ (.inl rfl))
  refine ⟨q, _, _, hm, hs, h1, h0, row_of hm hs (hl _ (.inr (.inr rfl))) (by show 0 < 1 + _; omega), r3, r4,
    explicit_none hs one_pos (by simp [hnr]) (by rw [hd]; exact satQP_dep), fun step s0 s1 => ?_⟩
  have hfc : CritReg.facet_center L (q.fCr [1]) 0 = .ok (some (Vec.single (-1 / 1 : ℝ))) := by
    unfold CritReg.facet_center
    rw [if_pos (fCr_inv hs).1]
    show Except.ok (some (Vec.single ((q.fCr [1]).polyhedron.b.e 0 / (q.fCr [1]).polyhedron.A.e 0 0))) = _
    rw [r1, r2]
  have hadd : np.addV (Vec.single (-1 / 1 : ℝ)) (((q.fCr [1]).polyhedron.A.row 0).smul step) = .ok _ := if_pos (fCr_inv (a := [1]) hs).1.symm
  have hx : ((Vec.single (-1 / 1 : ℝ)).add (((q.fCr [1]).polyhedron.A.row 0).smul step)).e 0 = -1 + step := by
    show (Vec.single (-1 / 1 : ℝ)).e 0 + step * (q.fCr [1]).polyhedron.A.e 0 0 = _
    rw [r1]
    simp [Vec.single]
  refine ⟨_, ?_, hx, (r4 _).2 ⟨by rw [hx]; linarith, by rw [hx]; linarith⟩, ?_⟩
  · unfold beyondFacet
    rw [hfc, Py.ok_bind]
    simp only
    rw [hadd, Py.ok_bind]
    have : symmDiff (q.fCr [1]).active_set.toFinset {0} = ({0, 1} : Finset ℕ) := by
      show symmDiff ([1] : List ℕ).toFinset {0} = {0, 1}
      decide
    have hsort : ({0, 1} : Finset ℕ).sort (· ≤ ·) = [0, 1] := (List.toFinset_sort (l := [0, 1]) (· ≤ ·) (by decide)).2 (by decide)
    rw [this, hsort]
    rfl
  · rintro ⟨u, -, h⟩
    have g0 := h 0 (by simp)
    have g1 := h 1 (by simp)
    rw [hd, satQP_lhs] at g0 g1
    norm_num [satQP] at g0 g1
    linarith

/-- the hypotheses of `C145_partial` on `satQP`, beyond the facet of the region of `{1}` -/
example (L : Lib) : ∃ (q : MpQP) (cr : CritReg) (x : Vec ℝ) (g : List ℕ), q.Made ∧ q.data.Shape 1 1 ∧ q.explicit_solve_given_active_set [1] = .ok (some cr) ∧
    0 < q.Au.nr ∧ beyondFacet L 1e-5 cr 0 = .ok (x, g) := by
  obtain ⟨q, cr, cr', hm, hs, h1, -, -, -, -, -, h2⟩ := C145_false L
  obtain ⟨x, hx, -⟩ := h2 1e-5 (by norm_num) (by norm_num)
  exact ⟨q, cr, x, _, hm, hs, h1, (explicit_cases hm hs h1).1 1 (by simp) |>.trans_le' (by norm_num), hx⟩

/-! ### the number of regions -/

/-- independent constraints are at most as many as the variables -/
theorem licq_length {P : Spec.ParamQP} {a : List ℕ} (h : P.Licq nu a) : a.length ≤ nu := by
  have hli : LinearIndependent ℝ fun k : Fin a.length => fun j : Fin nu => P.Au.e (a.getD k 0) j := by
    rw [Fintype.linearIndependent_iff]
    intro g hg i
    have := h (fun k => if hk : k < a.length then g ⟨k, hk⟩ else 0) (fun j hj => by
      have := congrFun hg ⟨j, hj⟩
      rw [Finset.sum_apply] at this
      simp only [Pi.smul_apply, smul_eq_mul, Pi.zero_apply] at this
      refine Eq.trans ?_ this
      rw [← Fin.sum_univ_eq_sum_range (fun k => (if hk : k < a.length then g ⟨k, hk⟩ else 0) * P.Au.e (a.getD k 0) j)]
      exact Finset.sum_congr rfl fun k _ => by simp) i i.2
    simpa using this
  simpa using hli.fintype_card_le_finrank

/-- the active set of a region found from a sorted guess is sorted -/
theorem point_sorted {L : Lib} (hL : LibSpec L) (hm : q.Made) (hs : q.data.Shape nu nx) (hnu : 0 < nu) (hpos : 0 < q.Au.nr) {x : Vec ℝ} (hx : x.n = nx) {g : List ℕ}
    (hg : g.Pairwise (· < ·)) {cr : CritReg} (h : q.explicit_solve_given_point L x (some g) = .ok (some cr)) : cr.active_set.Pairwise (· < ·) := by
  obtain ⟨g1, g2, g3, -⟩ := C44_partial L hL nu nx q hm hs hnu hpos x hx
  by_cases hin : ∀ i ∈ g, i < q.Au.nr
  · by_cases hc : ∃ c : CritReg, q.explicit_solve_given_active_set g = .ok (some c) ∧ c.contains x = .ok true
    · obtain ⟨c, c1, c2⟩ := hc
      rw [g1 _ c c1 c2] at h
      cases h
      obtain ⟨-, -, rfl⟩ := explicit_cases hm hs c1
      exact hg
    · rw [g2 g hin fun c c1 c2 => hc ⟨c, c1, c2⟩] at h
      rcases g3 with ⟨s, h1, h2, h3⟩ | ⟨u, lam, s, act, h1, h2, hlam, h3, h4, h5, h5', h6, h7, h8⟩
      · rw [h3] at h; cases h
      · by_cases hl : q.data.Licq nu act
        · obtain ⟨c, c1, c2, c3, -⟩ := h8 hl
          rw [c1] at h
          cases h
          rw [c3]
          exact h5'
        · rw [h7 hl] at h; cases h
  · exfalso
    have : np.rows q.Au g = .error .indexError := if_neg hin
    unfold explicit_solve_given_point explicit_solve_given_active_set at h
    simp only [this] at h
    cases h

theorem reached_sorted {L : Lib} {step : ℝ} {xa : Vec ℝ × List ℕ} (h : Reached L q step xa) : xa.2.Pairwise (· < ·) := by
  cases h with
  | start => exact List.Pairwise.nil
  | next h1 h2 h3 h4 =>
    obtain ⟨mf, k1, k2⟩ := neighbours_mem h3
    obtain ⟨l1, l2⟩ := mapM_ok_iff k2
    obtain ⟨i, hi, rfl⟩ := List.getElem_of_mem h4
    have h := l2 i (l1 ▸ hi) hi
    unfold beyondFacet at h
    obtain ⟨c, -, h⟩ := Py.bind_eq_ok h
    cases c with
    | none => cases h
    | some c =>
      obtain ⟨y, -, h⟩ := Py.bind_eq_ok h
      have e := (Except.ok.inj h).symm
      rw [e]
      simp only
      exact (Finset.sortedLT_sort _).pairwise

/-- a search that has ended does not change if it is given more time -/
theorem explore_mono {L : Lib} {step : ℝ} {sol : ExplicitSolution} {fuel : ℕ} {buffer : List (Vec ℝ × List ℕ)} {found : List CritReg}
    (h : explore L q step fuel buffer found = .ok (some sol)) (k : ℕ) : explore L q step (fuel + k) buffer found = .ok (some sol) := by
  induction fuel generalizing buffer found with
  | zero => cases h
  | succ fuel ih =>
    rw [show fuel + 1 + k = fuel + k + 1 by omega]
    unfold explore at h ⊢
    obtain ⟨r, hu, h⟩ := Py.bind_eq_ok h
    rw [hu, Py.ok_bind]
    cases r with
    | nil => exact h
    | cons ya rest =>
      obtain ⟨c, hc, h⟩ := Py.bind_eq_ok h
      simp only [hc, Py.ok_bind]
      cases c with
      | none => exact ih h
      | some c =>
        obtain ⟨w, hw, h⟩ := Py.bind_eq_ok h
        simp only [hw, Py.ok_bind]
        exact ih h

/-- C146: the active sets of the regions that `explicit_solve` returns are increasing lists of at most `nu` constraints, so that the number of different active sets is at most
the number of sets of at most `nu` constraints; under the hypothesis of `C84_partial` this bounds the number of regions. -/
theorem C146 (L : Lib) (hL : LibSpec L) (nu nx : ℕ) (q : MpQP) (hm : q.Made) (hs : q.data.Shape nu nx) (hnu : 0 < nu) (hpos : 0 < q.Au.nr) (step : ℝ) (fuel : ℕ)
    (sol : ExplicitSolution) (h : q.explicit_solve L fuel step = .ok (some sol)) :
    (∀ cr ∈ sol, cr.active_set.Pairwise (· < ·) ∧ cr.active_set.length ≤ nu ∧ ∀ i ∈ cr.active_set, i < q.Au.nr) ∧
    (sol.map CritReg.active_set).toFinset.card ≤ ∑ k ∈ range (nu + 1), q.Au.nr.choose k ∧
    ((∀ xa, Reached L q step xa → xa.1.n = nx → ∀ s lam, q.solve L xa.1 = .ok s →
      s.multiplier_inequality = some lam → ∀ i < q.Au.nr, 1e-7 < lam.e i ∨ lam.e i = 0) → sol.length ≤ ∑ k ∈ range (nu + 1), q.Au.nr.choose k) := by
  have hall : ∀ cr ∈ sol, cr.active_set.Pairwise (· < ·) ∧ cr.active_set.length ≤ nu ∧ ∀ i ∈ cr.active_set, i < q.Au.nr := by
    intro cr hcr
    obtain ⟨-, -, -, xa, cr0, l, mf, h1, h2, h3, -⟩ := region_facets hL hm hs h hcr
    have hp := point_sorted hL hm hs hnu hpos (reached_size hm hs h1) (reached_sorted h1) h2
    obtain ⟨a, hrun⟩ := point_from h2
    obtain ⟨c1, c2, rfl⟩ := explicit_cases hm hs hrun
    obtain ⟨P, -, rfl⟩ := neighbours_like h3
    exact ⟨hp, licq_length c2, c1⟩
  have hcard : (sol.map CritReg.active_set).toFinset.card ≤ ∑ k ∈ range (nu + 1), q.Au.nr.choose k := by
    have e : ∑ k ∈ range (nu + 1), q.Au.nr.choose k = ((range (nu + 1)).biUnion fun k => (range q.Au.nr).powersetCard k).card := by
      rw [Finset.card_biUnion (fun i _ j _ hij => Finset.pairwise_disjoint_powersetCard _ hij)]
      simp
    rw [e]
    refine Finset.card_le_card_of_injOn List.toFinset (fun a ha => ?_) (fun a ha b hb hab => ?_)
    · obtain ⟨cr, hcr, rfl⟩ := List.mem_map.1 (List.mem_toFinset.1 ha)
      obtain ⟨p1, p2, p3⟩ := hall cr hcr
      refine Finset.mem_coe.2 (Finset.mem_biUnion.2 ⟨cr.active_set.length, mem_range.2 (by omega), Finset.mem_powersetCard.2 ⟨fun i hi => mem_range.2 (p3 i (List.mem_toFinset.1 hi)), ?_⟩⟩)
      exact List.toFinset_card_of_nodup (p1.imp ne_of_lt)
    · obtain ⟨cr, hcr, rfl⟩ := List.mem_map.1 (List.mem_toFinset.1 ha)
      obtain ⟨cr', hcr', rfl⟩ := List.mem_map.1 (List.mem_toFinset.1 hb)
      have p1 := (hall cr hcr).1
      have p2 := (hall cr' hcr').1
      exact List.Perm.eq_of_pairwise (fun a b _ _ h1 h2 => absurd h1 (lt_asymm h2)) p1 p2
        (List.perm_of_nodup_nodup_toFinset_eq (p1.imp ne_of_lt) (p2.imp ne_of_lt) hab)
  refine ⟨hall, hcard, fun hgap => ?_⟩
  obtain ⟨N, hN⟩ := C84_partial L hL nu nx q hm hs hnu hpos step hgap
  obtain ⟨r, h1, -, h2⟩ := hN (fuel + N) (by omega)
  have h3 : q.explicit_solve L (fuel + N) step = .ok (some sol) := explore_mono h N
  have h4 := h2 sol (h1.symm.trans h3)
  rw [← List.length_map (f := CritReg.active_set), ← List.toFinset_card_of_nodup h4]
  exact hcard

/-- `C146` on the program `clip`: two regions with different active sets, as many as the bound allows -/
example (L : Lib) (hL : LibSpec L) : ∃ (q : MpQP) (sol : ExplicitSolution), q.Made ∧ q.data.Shape 1 1 ∧ 0 < q.Au.nr ∧ q.explicit_solve L 3 = .ok (some sol) ∧
    (sol.map CritReg.active_set).toFinset.card = ∑ k ∈ range (1 + 1), q.Au.nr.choose k ∧ ∀ cr ∈ sol, cr.active_set.length ≤ 1 := by
  obtain ⟨q, hm, hd, hs, hA, -⟩ := clip_made
  have hd : IsClip q.data := by rw [hd]; exact clip_is
  obtain ⟨c1, c2, h, l1, l2⟩ := clip_search hL hm hd 0
  refine ⟨q, _, hm, hs, by omega, h, ?_, fun cr hcr => ((C146 L hL 1 1 q hm hs one_pos (by omega) _ _ _ h).1 cr hcr).2.1⟩
  obtain ⟨P, -, rfl⟩ := l1
  obtain ⟨P', -, rfl⟩ := l2
  rw [hA]
  show ([[], [0]] : List (List ℕ)).toFinset.card = _
  decide

end Verif.Props
