import Verif.Proofs.ExampleGraph

/- The mixed-integer program of the drake example, built piece by piece. -/
namespace Verif
namespace Example
open Finset Spec Dyn Control

/-- the program `p'` is `p` with `k` more variables, more binary variables (that are binary when `B`), more constraints (that hold when `R`) and the cost
increased by `C` -/
structure Ext (p p' : Prog) (k : ℕ) (B R : (ℕ → ℝ) → Prop) (C : (ℕ → ℝ) → ℝ) : Prop where
  n : p'.n = p.n + k
  bins : ∃ l, p'.bins = p.bins ++ l ∧ ∀ v : ℕ → ℝ, (∀ i ∈ l, v i = 0 ∨ v i = 1) ↔ B v
  cons : ∃ l, p'.cons = p.cons ++ l ∧ ∀ v, (∀ c ∈ l, LinCon.Holds c v) ↔ R v
  cost : ∀ v, p'.cost v = p.cost v + C v

theorem Ext.trans {p p' p'' : Prog} {k k' : ℕ} {B R B' R' : (ℕ → ℝ) → Prop} {C C' : (ℕ → ℝ) → ℝ} (h : Ext p p' k B R C) (h' : Ext p' p'' k' B' R' C') :
    Ext p p'' (k + k') (fun v => B v ∧ B' v) (fun v => R v ∧ R' v) (fun v => C v + C' v) := by
  obtain ⟨l, e, hl⟩ := h.bins
  obtain ⟨l', e', hl'⟩ := h'.bins
  obtain ⟨g, f, hg⟩ := h.cons
  obtain ⟨g', f', hg'⟩ := h'.cons
  refine ⟨by rw [h'.n, h.n, Nat.add_assoc], ⟨l ++ l', by rw [e', e, List.append_assoc], fun v => ?_⟩, ⟨g ++ g', by rw [f', f, List.append_assoc], fun v => ?_⟩,
    fun v => by rw [h'.cost, h.cost, add_assoc]⟩
  · rw [List.forall_mem_append, hl, hl']
  · rw [List.forall_mem_append, hg, hg']

theorem Ext.congr {p p' : Prog} {k : ℕ} {B R B' R' : (ℕ → ℝ) → Prop} {C C' : (ℕ → ℝ) → ℝ} (h : Ext p p' k B R C) (hB : ∀ v, B v ↔ B' v)
    (hR : ∀ v, R v ↔ R' v) (hC : ∀ v, C v = C' v) : Ext p p' k B' R' C' := by
  obtain ⟨l, e, hl⟩ := h.bins
  obtain ⟨g, f, hg⟩ := h.cons
  exact ⟨h.n, ⟨l, e, fun v => (hl v).trans (hB v)⟩, ⟨g, f, fun v => (hg v).trans (hR v)⟩, fun v => by rw [h.cost, hC]⟩

theorem Ext.refl (p : Prog) : Ext p p 0 (fun _ => True) (fun _ => True) (fun _ => 0) :=
  ⟨rfl, ⟨[], by simp, by simp⟩, ⟨[], by simp, by simp⟩, by simp⟩

theorem Ext.continuous (p : Prog) (k : ℕ) : Ext p (p.newContinuous k).2 k (fun _ => True) (fun _ => True) (fun _ => 0) :=
  ⟨rfl, ⟨[], by simp [Prog.newContinuous], by simp⟩, ⟨[], by simp [Prog.newContinuous], by simp⟩, fun v => by simp [Prog.newContinuous, Prog.cost]⟩

theorem Ext.binary (p : Prog) (k : ℕ) : Ext p (p.newBinary k).2 k (fun v => ∀ j < k, v (p.n + j) = 0 ∨ v (p.n + j) = 1) (fun _ => True) (fun _ => 0) :=
  ⟨rfl, ⟨_, rfl, fun v => by simp⟩, ⟨[], by simp [Prog.newBinary], by simp⟩, fun v => by simp [Prog.newBinary, Prog.cost]⟩

theorem valTerms_append (l l' : List (ℕ × ℝ)) (v : ℕ → ℝ) : valTerms (l ++ l') v = valTerms l v + valTerms l' v := by
  simp [valTerms]

theorem valTerms_neg (l : List (ℕ × ℝ)) (v : ℕ → ℝ) : valTerms (l.map fun t => (t.1, -t.2)) v = - valTerms l v := by
  unfold valTerms
  induction l with
  | nil => simp
  | cons a l ih =>
    simp only [List.map_cons, List.sum_cons]
    rw [ih]
    ring

theorem sum_map_range (n : ℕ) (f : ℕ → ℝ) : ((List.range n).map f).sum = ∑ j ∈ range n, f j := by
  induction n with
  | zero => simp
  | succ n ih => rw [List.range_succ, List.map_append, List.sum_append, ih, Finset.sum_range_succ]; simp

theorem valTerms_range (n : ℕ) (g : ℕ → ℕ) (f : ℕ → ℝ) (v : ℕ → ℝ) :
    valTerms ((List.range n).map fun j => (g j, f j)) v = ∑ j ∈ range n, f j * v (g j) := by
  unfold valTerms
  rw [List.map_map, ← sum_map_range]
  rfl

theorem Ext.le (p : Prog) (lhs rhs : Aff) : Ext p (p.addLe lhs rhs) 0 (fun _ => True)
    (fun v => valTerms lhs.terms v + lhs.const ≤ valTerms rhs.terms v + rhs.const) (fun _ => 0) := by
  refine ⟨rfl, ⟨[], by simp [Prog.addLe], by simp⟩, ⟨_, rfl, fun v => ?_⟩, fun v => by simp [Prog.addLe, Prog.cost]⟩
  have e : valTerms (lhs.terms ++ rhs.terms.map fun t => (t.1, -t.2)) v = valTerms lhs.terms v - valTerms rhs.terms v := by
    rw [valTerms_append, valTerms_neg, sub_eq_add_neg]
  rw [List.forall_mem_singleton]
  constructor
  · rintro ⟨-, h⟩
    have := (e ▸ h _ rfl : valTerms lhs.terms v - valTerms rhs.terms v ≤ rhs.const - lhs.const)
    linarith
  · intro h
    refine ⟨fun a ha => (nomatch ha), fun a ha => ?_⟩
    show valTerms (lhs.terms ++ rhs.terms.map fun t => (t.1, -t.2)) v ≤ a
    rw [e, ← Option.some.inj ha]
    linarith

theorem Ext.eq (p : Prog) (terms : List (ℕ × ℝ)) (a : ℝ) : Ext p (p.addEq terms a) 0 (fun _ => True) (fun v => valTerms terms v = a) (fun _ => 0) := by
  refine ⟨rfl, ⟨[], by simp [Prog.addEq], by simp⟩, ⟨_, rfl, fun v => ?_⟩, fun v => by simp [Prog.addEq, Prog.cost]⟩
  simp only [List.mem_singleton, forall_eq, LinCon.Holds]
  constructor
  · rintro ⟨h, h'⟩
    exact le_antisymm (h' _ rfl) (h _ rfl)
  · intro h
    exact ⟨fun b hb => le_of_eq (by rw [h]; exact (Option.some.inj hb).symm), fun b hb => le_of_eq (by rw [h]; exact Option.some.inj hb)⟩

/-- a loop whose iterations only add constraints -/
theorem Ext.fold {f : Prog → ℕ → Py Prog} (R : ℕ → (ℕ → ℝ) → Prop) (N : ℕ)
    (hf : ∀ k < N, ∀ p, ∃ p', f p k = .ok p' ∧ Ext p p' 0 (fun _ => True) (R k) (fun _ => 0)) (p : Prog) :
    ∃ p', (List.range N).foldlM f p = .ok p' ∧ Ext p p' 0 (fun _ => True) (fun v => ∀ k < N, R k v) (fun _ => 0) := by
  induction N with
  | zero => exact ⟨p, rfl, (Ext.refl p).congr (fun _ => Iff.rfl) (fun v => by simp) fun _ => rfl⟩
  | succ N ih =>
    obtain ⟨p1, h1, e1⟩ := ih fun k hk => hf k (Nat.lt_succ_of_lt hk)
    obtain ⟨p2, h2, e2⟩ := hf N (Nat.lt_succ_self N) p1
    refine ⟨p2, ?_, (e1.trans e2).congr (fun v => by simp) (fun v => ?_) (fun v => by simp)⟩
    · rw [List.range_succ, List.foldlM_append, h1]
      show (List.foldlM f p1 [N] : Py Prog) = _
      rw [List.foldlM_cons, h2]
      rfl
    · constructor
      · rintro ⟨a, b⟩ k hk
        rcases Nat.lt_succ_iff_lt_or_eq.1 hk with h | rfl
        · exact a k h
        · exact b
      · intro h
        exact ⟨fun k hk => h k (Nat.lt_succ_of_lt hk), h N (Nat.lt_succ_self N)⟩

/-! ### the constraints -/

theorem dotVars_ok {a : Vec ℝ} {w : Vec ℕ} (h : a.n = w.n) : ∃ t, dotVars a w = .ok t ∧ t.const = 0 ∧
    ∀ v, valTerms t.terms v = ∑ j ∈ range a.n, a.e j * v (w.e j) :=
  ⟨_, if_pos h, rfl, fun _ => valTerms_range _ _ _ _⟩

theorem rowVars_ok {A : Mat ℝ} {k : ℕ} {w : Vec ℕ} (h : A.nc = w.n) : ∃ t, dotVars (A.row k) w = .ok t ∧ t.const = 0 ∧
    ∀ v : ℕ → ℝ, valTerms t.terms v = rowVal A k (fun j => v (w.e j)) := dotVars_ok h

theorem others_ne {nm i : ℕ} (h : 2 ≤ nm) : (List.range nm).filter (· ≠ i) ≠ [] := by
  intro h0
  rw [List.filter_eq_nil_iff] at h0
  by_cases hi : i = 0
  · have := h0 1 (List.mem_range.2 (by omega))
    simp [hi] at this
  · have := h0 0 (List.mem_range.2 (by omega))
    simp at this
    exact hi this.symm

theorem sum_filter_range (nm i : ℕ) (f : ℕ → ℝ) : (((List.range nm).filter (· ≠ i)).map f).sum = ∑ j ∈ (range nm).erase i, f j := by
  have e : (range nm).erase i = ((List.range nm).filter (· ≠ i)).toFinset := by
    ext j
    simp [and_comm]
  rw [e, List.sum_toFinset _ (List.Nodup.filter _ List.nodup_range)]

theorem miSum_ok {mi : List (Vec ℝ)} {nm i k : ℕ} (h2 : 2 ≤ nm) (hl : mi.length = nm) (d : Vec ℕ) : ∃ t, miSum mi d nm i k = .ok t ∧ t.const = 0 ∧
    ∀ v, valTerms t.terms v = ∑ j ∈ (range nm).erase i, (mi.getD j vec0).e k * v (d.e j) := by
  have hm : ∀ l : List ℕ, (∀ j ∈ l, j < nm) → (l.mapM fun j => (do
      let mij ← np.listGet mi j
      return (d.e j, mij.e k) : Py (ℕ × ℝ))) = .ok (l.map fun j => (d.e j, (mi.getD j vec0).e k)) := by
    intro l
    induction l with
    | nil => intro _; rfl
    | cons j l ih =>
      intro hj
      rw [List.mapM_cons, Dyn.listGet_ok vec0 (show j < mi.length by rw [hl]; exact hj j (List.mem_cons_self ..)), Py.ok_bind]
      show ((.ok (d.e j, (mi.getD j vec0).e k) : Py (ℕ × ℝ)) >>= _) = _
      rw [Py.ok_bind, ih fun j' hj' => hj j' (List.mem_cons_of_mem _ hj'), Py.ok_bind]
      rfl
  refine ⟨⟨((List.range nm).filter (· ≠ i)).map fun j => (d.e j, (mi.getD j vec0).e k), 0⟩, ?_, rfl, fun v => ?_⟩
  · unfold miSum
    rw [if_neg (others_ne h2), hm _ fun j hj => List.mem_range.1 (List.mem_filter.1 hj).1]
    rfl
  · unfold valTerms
    rw [List.map_map, ← sum_filter_range]
    rfl

/-- row `k` of mode `i` with the variables `w` for `(x, u, x⁺)` and `d` -/
def RowHolds (Gs : List Poly) (m : List (List (Vec ℝ))) (nm : ℕ) (w d : Vec ℕ) (i k : ℕ) (v : ℕ → ℝ) : Prop :=
  rowVal (Gs.getD i poly0).A k (fun j => v (w.e j)) ≤ (Gs.getD i poly0).b.e k + ∑ j ∈ (range nm).erase i, ex m i j k * v (d.e j)

theorem addMode_ok {Gs : List Poly} {m : List (List (Vec ℝ))} {nm i : ℕ} (h2 : 2 ≤ nm) (hi : i < nm) (hG : Gs.length = nm) (hm : m.length = nm)
    (hmi : (m.getD i []).length = nm) {w : Vec ℕ} (hw : (Gs.getD i poly0).A.nc = w.n) (d : Vec ℕ) (p : Prog) :
    ∃ p', addMode Gs m nm w d p i = .ok p' ∧
      Ext p p' 0 (fun _ => True) (fun v => ∀ k < (Gs.getD i poly0).A.nr, RowHolds Gs m nm w d i k v) (fun _ => 0) := by
  unfold addMode
  rw [Dyn.listGet_ok poly0 (show i < Gs.length by rw [hG]; exact hi), Py.ok_bind, Dyn.listGet_ok [] (show i < m.length by rw [hm]; exact hi), Py.ok_bind]
  refine Ext.fold (RowHolds Gs m nm w d i) _ (fun k hk p => ?_) p
  obtain ⟨t, e1, c1, v1⟩ := rowVars_ok (k := k) hw
  obtain ⟨s, e2, c2, v2⟩ := miSum_ok (i := i) (k := k) h2 hmi d
  refine ⟨p.addLe t ⟨s.terms, (Gs.getD i poly0).b.e k + s.const⟩, ?_, (Ext.le p _ _).congr (fun _ => Iff.rfl) (fun v => ?_) (fun _ => rfl)⟩
  · unfold addRow
    rw [e1, Py.ok_bind, e2, Py.ok_bind]
    rfl
  · unfold RowHolds ex
    rw [v1, v2, c1, c2]
    constructor <;> intro h <;> linarith

theorem addModes_ok {S : PWA} {Gs : List Poly} {m : List (List (Vec ℝ))} (h2 : 2 ≤ S.nm) (hG : Gs.length = S.nm)
    (hGi : ∀ i < S.nm, IsGraph S i (Gs.getD i poly0)) (hm : IsM S Gs m) {w : Vec ℕ} (hw : w.n = S.nx + S.nu + S.nx) (d : Vec ℕ) (p : Prog) :
    ∃ p', (List.range S.nm).foldlM (addMode Gs m S.nm w d) p = .ok p' ∧
      Ext p p' 0 (fun _ => True) (fun v => ∀ i < S.nm, ∀ k < (Gs.getD i poly0).A.nr, RowHolds Gs m S.nm w d i k v) (fun _ => 0) :=
  Ext.fold (fun i v => ∀ k < (Gs.getD i poly0).A.nr, RowHolds Gs m S.nm w d i k v) _
    (fun i hi p => addMode_ok h2 hi hG hm.len (hm.row i hi) (by rw [(hGi i hi).nc, hw]) d p) p

theorem cost_quad (p : Prog) (l : List (ℕ × ℕ × ℝ)) (v : ℕ → ℝ) :
    ({ p with quad := p.quad ++ l } : Prog).cost v = p.cost v + (l.map fun q => q.2.2 * v q.1 * v q.2.1).sum := by
  simp [Prog.cost]

theorem Ext.quad (p : Prog) (l : List (ℕ × ℕ × ℝ)) : Ext p { p with quad := p.quad ++ l } 0 (fun _ => True) (fun _ => True)
    (fun v => (l.map fun q => q.2.2 * v q.1 * v q.2.1).sum) :=
  ⟨rfl, ⟨[], by simp, by simp⟩, ⟨[], by simp, by simp⟩, cost_quad p l⟩

theorem quadVars_ok {M : Mat ℝ} {w : Vec ℕ} (hr : M.nr = w.n) (hc : M.nc = w.n) : ∃ l, quadVars M w = .ok l ∧
    ∀ v : ℕ → ℝ, (l.map fun q => q.2.2 * v q.1 * v q.2.1).sum = 1 / 2 * Spec.quad M (fun i => v (w.e i)) := by
  refine ⟨_, if_pos ⟨hr, hc⟩, fun v => ?_⟩
  unfold Spec.quad
  have : ∀ l : List ℕ, ((l.flatMap fun i => (List.range w.n).map fun j => ((w.e i, w.e j, 1 / 2 * M.e i j) : ℕ × ℕ × ℝ)).map
      fun q => q.2.2 * v q.1 * v q.2.1).sum = (l.map fun i => ∑ j ∈ range w.n, 1 / 2 * M.e i j * v (w.e i) * v (w.e j)).sum := by
    intro l
    induction l with
    | nil => simp
    | cons i l ih =>
      rw [List.flatMap_cons, List.map_append, List.sum_append, ih, List.map_cons, List.sum_cons, List.map_map, ← sum_map_range]
      rfl
  rw [this, sum_map_range, hr, hc, Finset.mul_sum]
  refine Finset.sum_congr rfl fun i _ => ?_
  rw [Finset.mul_sum]
  exact Finset.sum_congr rfl fun j _ => by ring

/-! ### the variables -/

/-- the variables of the state at time `t` -/
def xi (nx nu nm : ℕ) : ℕ → Vec ℕ
  | 0 => ⟨nx, fun i => i⟩
  | t + 1 => ⟨nx, fun i => nx + t * (nu + nm + nx) + nu + nm + i⟩

/-- the variables of the input at time `t` -/
def ui (nx nu nm t : ℕ) : Vec ℕ := ⟨nu, fun i => nx + t * (nu + nm + nx) + i⟩

/-- the binary variables at time `t` -/
def di (nx nu nm t : ℕ) : Vec ℕ := ⟨nm, fun i => nx + t * (nu + nm + nx) + nu + i⟩

theorem xi_n (nx nu nm t : ℕ) : (xi nx nu nm t).n = nx := by cases t <;> rfl

/-- the variables of `(x, u, x⁺)` at time `t` -/
def wi (nx nu nm t : ℕ) : Vec ℕ := (xi nx nu nm t).append ((ui nx nu nm t).append (xi nx nu nm (t + 1)))

theorem wi_n (nx nu nm t : ℕ) : (wi nx nu nm t).n = nx + nu + nx := by
  show (xi nx nu nm t).n + (nu + nx) = _
  rw [xi_n, Nat.add_assoc]

/-- the constraints of the stage `t` -/
def StageR (S : PWA) (Gs : List Poly) (m : List (List (Vec ℝ))) (t : ℕ) (v : ℕ → ℝ) : Prop :=
  (∀ i < S.nm, ∀ k < (Gs.getD i poly0).A.nr, RowHolds Gs m S.nm (wi S.nx S.nu S.nm t) (di S.nx S.nu S.nm t) i k v) ∧
  ∑ j ∈ range S.nm, v ((di S.nx S.nu S.nm t).e j) = 1

/-- the binary variables of the stage `t` are binary -/
def StageB (S : PWA) (t : ℕ) (v : ℕ → ℝ) : Prop := ∀ j < S.nm, v ((di S.nx S.nu S.nm t).e j) = 0 ∨ v ((di S.nx S.nu S.nm t).e j) = 1

/-- the cost of the stage `t` -/
noncomputable def StageC (S : PWA) (Q R : Mat ℝ) (t : ℕ) (v : ℕ → ℝ) : ℝ :=
  1 / 2 * (Spec.quad Q (fun i => v ((xi S.nx S.nu S.nm t).e i)) + Spec.quad R (fun i => v ((ui S.nx S.nu S.nm t).e i)))

/-- the state of the construction after `t` stages -/
structure AfterStages (S : PWA) (Q R : Mat ℝ) (Gs : List Poly) (m : List (List (Vec ℝ))) (p0 : Prog) (t : ℕ) (s : Build) : Prop where
  x : s.x = (List.range (t + 1)).map (xi S.nx S.nu S.nm)
  u : s.u = (List.range t).map (ui S.nx S.nu S.nm)
  d : s.d = (List.range t).map (di S.nx S.nu S.nm)
  prog : Ext p0 s.prog (t * (S.nu + S.nm + S.nx)) (fun v => ∀ τ < t, StageB S τ v) (fun v => ∀ τ < t, StageR S Gs m τ v)
    (fun v => ∑ τ ∈ range t, StageC S Q R τ v)

theorem addStage_ok {S : PWA} {Q R : Mat ℝ} {Gs : List Poly} {m : List (List (Vec ℝ))} (h2 : 2 ≤ S.nm) (hG : Gs.length = S.nm)
    (hGi : ∀ i < S.nm, IsGraph S i (Gs.getD i poly0)) (hm : IsM S Gs m) (hQ : Q.nr = S.nx ∧ Q.nc = S.nx) (hR : R.nr = S.nu ∧ R.nc = S.nu) {p0 : Prog}
    (hp0 : p0.n = S.nx) {t : ℕ} {s : Build} (hs : AfterStages S Q R Gs m p0 t s) :
    ∃ s', addStage S Q R Gs m s t = .ok s' ∧ AfterStages S Q R Gs m p0 (t + 1) s' := by
  have hx : np.listGet s.x t = .ok (xi S.nx S.nu S.nm t) := by
    rw [Dyn.listGet_ok ⟨0, fun _ => 0⟩ (show t < s.x.length by rw [hs.x]; simp), hs.x]
    congr 1
    rw [List.getD_eq_getElem _ _ (by simp)]
    simp
  have hn : s.prog.n = S.nx + t * (S.nu + S.nm + S.nx) := by rw [hs.prog.n, hp0]
  have hU : (s.prog.newContinuous S.nu).1 = ui S.nx S.nu S.nm t := by
    unfold Prog.newContinuous ui
    rw [hn]
  have hn1 : (s.prog.newContinuous S.nu).2.n = S.nx + t * (S.nu + S.nm + S.nx) + S.nu := by
    show s.prog.n + S.nu = _
    rw [hn]
  have hD : ((s.prog.newContinuous S.nu).2.newBinary S.nm).1 = di S.nx S.nu S.nm t := by
    show (⟨S.nm, fun i => (s.prog.newContinuous S.nu).2.n + i⟩ : Vec ℕ) = _
    unfold di
    rw [hn1]
  have hn2 : ((s.prog.newContinuous S.nu).2.newBinary S.nm).2.n = S.nx + t * (S.nu + S.nm + S.nx) + S.nu + S.nm := by
    show (s.prog.newContinuous S.nu).2.n + S.nm = _
    rw [hn1]
  have hX : (((s.prog.newContinuous S.nu).2.newBinary S.nm).2.newContinuous S.nx).1 = xi S.nx S.nu S.nm (t + 1) := by
    show (⟨S.nx, fun i => ((s.prog.newContinuous S.nu).2.newBinary S.nm).2.n + i⟩ : Vec ℕ) = ⟨S.nx, fun i => S.nx + t * (S.nu + S.nm + S.nx) + S.nu + S.nm + i⟩
    rw [hn2]
  have hcat : np.concatenate [xi S.nx S.nu S.nm t, ui S.nx S.nu S.nm t, xi S.nx S.nu S.nm (t + 1)] = .ok (wi S.nx S.nu S.nm t) := rfl
  obtain ⟨p1, e1, h1⟩ := addModes_ok h2 hG hGi hm (wi_n S.nx S.nu S.nm t) (di S.nx S.nu S.nm t)
    (((s.prog.newContinuous S.nu).2.newBinary S.nm).2.newContinuous S.nx).2
  obtain ⟨qu, e2, c2⟩ := quadVars_ok (M := R) (w := ui S.nx S.nu S.nm t) hR.1 hR.2
  obtain ⟨qx, e3, c3⟩ := quadVars_ok (M := Q) (w := xi S.nx S.nu S.nm t) (by rw [xi_n, hQ.1]) (by rw [xi_n, hQ.2])
  have hb := Ext.binary (s.prog.newContinuous S.nu).2 S.nm
  have hE := (((((hs.prog.trans (Ext.continuous s.prog S.nu)).trans hb).trans
    (Ext.continuous ((s.prog.newContinuous S.nu).2.newBinary S.nm).2 S.nx)).trans h1).trans
      (Ext.eq p1 ((List.range S.nm).map fun j => ((di S.nx S.nu S.nm t).e j, (1 : ℝ))) 1)).trans
        (Ext.quad (p1.addEq ((List.range S.nm).map fun j => ((di S.nx S.nu S.nm t).e j, (1 : ℝ))) 1) (qu ++ qx))
  refine ⟨⟨{ p1.addEq ((List.range S.nm).map fun j => ((di S.nx S.nu S.nm t).e j, (1 : ℝ))) 1 with
    quad := (p1.addEq ((List.range S.nm).map fun j => ((di S.nx S.nu S.nm t).e j, (1 : ℝ))) 1).quad ++ (qu ++ qx) },
    s.x ++ [xi S.nx S.nu S.nm (t + 1)], s.u ++ [ui S.nx S.nu S.nm t], s.d ++ [di S.nx S.nu S.nm t]⟩, ?_, ⟨?_, ?_, ?_, ?_⟩⟩
  · unfold addStage
    simp only [hx, Py.ok_bind, hU, hD, hX, hcat, e1, e2, e3]
    rfl
  · show s.x ++ [xi S.nx S.nu S.nm (t + 1)] = _
    rw [hs.x, List.range_succ (n := t + 1), List.map_append]
    rfl
  · show s.u ++ [ui S.nx S.nu S.nm t] = _
    rw [hs.u, List.range_succ, List.map_append]
    rfl
  · show s.d ++ [di S.nx S.nu S.nm t] = _
    rw [hs.d, List.range_succ, List.map_append]
    rfl
  · have hE' := hE.congr (B' := fun v => ∀ τ < t + 1, StageB S τ v) (R' := fun v => ∀ τ < t + 1, StageR S Gs m τ v)
      (C' := fun v => ∑ τ ∈ range (t + 1), StageC S Q R τ v) (fun v => ?_) (fun v => ?_) (fun v => ?_)
    · refine ⟨?_, hE'.bins, hE'.cons, hE'.cost⟩
      rw [hE'.n]
      ring
    · rw [Nat.forall_lt_succ_right, hn1]
      simp only [and_true]
      rfl
    · rw [Nat.forall_lt_succ_right, valTerms_range]
      simp only [and_true, one_mul]
      exact and_assoc
    · rw [Finset.sum_range_succ, List.map_append, List.sum_append, c2, c3]
      unfold StageC
      ring

theorem addStages_ok {S : PWA} {Q R : Mat ℝ} {Gs : List Poly} {m : List (List (Vec ℝ))} (h2 : 2 ≤ S.nm) (hG : Gs.length = S.nm)
    (hGi : ∀ i < S.nm, IsGraph S i (Gs.getD i poly0)) (hm : IsM S Gs m) (hQ : Q.nr = S.nx ∧ Q.nc = S.nx) (hR : R.nr = S.nu ∧ R.nc = S.nu) {s0 : Build}
    (hp0 : s0.prog.n = S.nx) (hx : s0.x = [xi S.nx S.nu S.nm 0]) (hu : s0.u = []) (hd : s0.d = []) (N : ℕ) :
    ∃ s', (List.range N).foldlM (addStage S Q R Gs m) s0 = .ok s' ∧ AfterStages S Q R Gs m s0.prog N s' := by
  induction N with
  | zero =>
    refine ⟨s0, rfl, by rw [hx]; rfl, hu, hd, ?_⟩
    have := (Ext.refl s0.prog).congr (B' := fun v => ∀ τ < 0, StageB S τ v) (R' := fun v => ∀ τ < 0, StageR S Gs m τ v)
      (C' := fun v => ∑ τ ∈ range 0, StageC S Q R τ v) (fun v => by simp) (fun v => by simp) (fun v => by simp)
    rwa [Nat.zero_mul]
  | succ N ih =>
    obtain ⟨s1, e1, h1⟩ := ih
    obtain ⟨s2, e2, h2'⟩ := addStage_ok h2 hG hGi hm hQ hR hp0 h1
    refine ⟨s2, ?_, h2'⟩
    rw [List.range_succ, List.foldlM_append, e1]
    show (List.foldlM (addStage S Q R Gs m) s1 [N] : Py Build) = _
    rw [List.foldlM_cons, e2]
    rfl

/-! ### the initial state -/

/-- the constraints on the initial state -/
def inits (nx : ℕ) (a : ℕ → ℝ) : List LinCon := (List.range nx).map fun k => ⟨[(k, 1)], some (a k), some (a k)⟩

theorem inits_holds (nx : ℕ) (a v : ℕ → ℝ) : (∀ c ∈ inits nx a, LinCon.Holds c v) ↔ ∀ k < nx, v k = a k := by
  simp only [inits, List.mem_map, List.mem_range, forall_exists_index, and_imp, forall_apply_eq_imp_iff₂, LinCon.Holds]
  refine forall_congr' fun k => forall_congr' fun _ => ?_
  simp only [Option.some.injEq, forall_eq', valTerms, List.map_cons, List.map_nil, List.sum_cons, List.sum_nil]
  constructor
  · rintro ⟨h1, h2⟩
    linarith
  · intro h
    constructor <;> linarith

theorem initial_eq (nx : ℕ) : initial nx = ⟨⟨nx, [], inits nx (fun _ => 0), []⟩, [⟨nx, fun i => i⟩], [], []⟩ := by
  have : ∀ l : List ℕ, ∀ p : Prog, l.foldl (fun p k => p.addEq [(0 + k, 1)] 0) p
      = { p with cons := p.cons ++ l.map fun k => ⟨[(k, 1)], some 0, some 0⟩ } := by
    intro l
    induction l with
    | nil => intro p; simp
    | cons k l ih =>
      intro p
      rw [List.foldl_cons, ih]
      simp [Prog.addEq]
  unfold initial
  simp only [Prog.newContinuous]
  rw [this]
  simp [inits]

/-! ### the program -/

/-- the terminal constraints -/
def TermR (S : PWA) (N : ℕ) (X_N : Poly) (v : ℕ → ℝ) : Prop := IneqHold X_N.A X_N.b (fun i => v ((xi S.nx S.nu S.nm N).e i))

/-- what `__init__` builds; `rest` are the constraints after the ones on the initial state -/
structure IsCtrl (S : PWA) (N : ℕ) (Q R P : Mat ℝ) (X_N : Poly) (Gs : List Poly) (m : List (List (Vec ℝ))) (rest : List LinCon) (c : Ctrl) : Prop where
  sys : c.S = S
  hor : c.N = N
  x : c.x = (List.range (N + 1)).map (xi S.nx S.nu S.nm)
  u : c.u = (List.range N).map (ui S.nx S.nu S.nm)
  d : c.d = (List.range N).map (di S.nx S.nu S.nm)
  rest : ∀ v, ((∀ c ∈ rest, LinCon.Holds c v) ∧ ∀ i ∈ c.prog.bins, v i = 0 ∨ v i = 1) ↔
    (∀ t < N, StageB S t v) ∧ (∀ t < N, StageR S Gs m t v) ∧ TermR S N X_N v
  cost : ∀ v, c.prog.cost v = ∑ t ∈ range N, StageC S Q R t v + 1 / 2 * Spec.quad P (fun i => v ((xi S.nx S.nu S.nm N).e i))

/-- the constraints on the initial state come first -/
structure HasInits (nx : ℕ) (a : ℕ → ℝ) (rest : List LinCon) (c : Ctrl) : Prop where
  ic : c.initial_condition = List.range nx
  cons : c.prog.cons = inits nx a ++ rest

theorem IsCtrl.feas {S : PWA} {N : ℕ} {Q R P : Mat ℝ} {X_N : Poly} {Gs : List Poly} {m : List (List (Vec ℝ))} {rest : List LinCon} {c : Ctrl}
    (h : IsCtrl S N Q R P X_N Gs m rest c) {a : ℕ → ℝ} (hi : HasInits S.nx a rest c) (v : ℕ → ℝ) :
    c.prog.Feasible v ↔ (∀ k < S.nx, v k = a k) ∧ (∀ t < N, StageB S t v) ∧ (∀ t < N, StageR S Gs m t v) ∧ TermR S N X_N v := by
  unfold Prog.Feasible
  rw [hi.cons, List.forall_mem_append, inits_holds, and_assoc, h.rest]

theorem init_ok {L : Lib} (hL : LibSpec L) {S : PWA} {N : ℕ} {Q R P : Mat ℝ} {X_N : Poly} (h : HybArgs S N Q R P X_N) (hg : GoodIneqs S) (h2 : 2 ≤ S.nm) :
    ∃ Gs m c rest, (∀ i < S.nm, IsGraph S i (Gs.getD i poly0)) ∧ IsM S Gs m ∧ init L S N Q R P X_N = .ok c ∧
      IsCtrl S N Q R P X_N Gs m rest c ∧ HasInits S.nx (fun _ => 0) rest c := by
  obtain ⟨Gs, m, e1, e2, hG, hGi, hm⟩ := build_m hL h.pwa hg
  obtain ⟨s, e3, hs⟩ := addStages_ok (S := S) (Q := Q) (R := R) (s0 := initial S.nx) h2 hG hGi hm ⟨h.Q.1, h.Q.2.1⟩ h.R (by rw [initial_eq]) (by rw [initial_eq]; rfl)
    (by rw [initial_eq]) (by rw [initial_eq]) N
  have e4 : np.listGet s.x N = .ok (xi S.nx S.nu S.nm N) := by
    rw [Dyn.listGet_ok ⟨0, fun _ => 0⟩ (show N < s.x.length by rw [hs.x]; simp), hs.x]
    congr 1
    rw [List.getD_eq_getElem _ _ (by simp)]
    simp
  have hp0 : (initial S.nx).prog = ⟨S.nx, [], inits S.nx (fun _ => 0), []⟩ := by rw [initial_eq]
  obtain ⟨p, e5, hp⟩ := Ext.fold (f := addTerminal X_N (xi S.nx S.nu S.nm N))
    (fun k v => rowVal X_N.A k (fun i => v ((xi S.nx S.nu S.nm N).e i)) ≤ X_N.b.e k) X_N.A.nr (fun k hk p => by
      obtain ⟨t, f1, f2, f3⟩ := rowVars_ok (A := X_N.A) (k := k) (w := xi S.nx S.nu S.nm N) (by rw [xi_n, h.XN.1])
      refine ⟨p.addLe t ⟨[], X_N.b.e k⟩, ?_, (Ext.le p _ _).congr (fun _ => Iff.rfl) (fun v => ?_) (fun _ => rfl)⟩
      · unfold addTerminal
        rw [f1, Py.ok_bind]
        rfl
      · rw [f3, f2]
        simp [valTerms]) s.prog
  obtain ⟨q, e6, hq⟩ := quadVars_ok (M := P) (w := xi S.nx S.nu S.nm N) (by rw [xi_n, h.P.1]) (by rw [xi_n, h.P.2.1])
  have hE := (hs.prog.trans hp).trans (Ext.quad p q)
  obtain ⟨lb, eb, hlb⟩ := hE.bins
  obtain ⟨lc, ec, hlc⟩ := hE.cons
  rw [hp0] at eb ec
  refine ⟨Gs, m, ⟨S, N, { p with quad := p.quad ++ q }, s.x, s.u, s.d, List.range S.nx⟩, lc, hGi, hm, ?_, ⟨rfl, rfl, hs.x, hs.u, hs.d, fun v => ?_, fun v => ?_⟩,
    rfl, ec⟩
  · unfold init
    simp only [e1, e2, e3, e4, e5, e6, Py.ok_bind]
    rfl
  · simp only []
    rw [show p.bins = lb from eb, hlb, hlc]
    simp only [and_true]
    unfold TermR IneqHold
    tauto
  · show ({ p with quad := p.quad ++ q } : Prog).cost v = _
    rw [hE.cost, hp0, hq]
    simp [Prog.cost]

end Example
end Verif
