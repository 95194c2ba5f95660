import Verif.Proofs.Mcais
import Mathlib.Topology.Algebra.Order.LiminfLimsup
import Mathlib.Analysis.SpecificLimits.Basic

/- The maximal constraint-admissible invariant set: C54, C55, C56, C57 of properties.jsonl. -/
namespace Verif.Props
open Dyn Spec Finset Filter Topology

/-- the data of `mcais`: a square matrix with at least one row and a bounded polyhedron without equalities that contains the origin; the cached
answers of the polyhedron, if any, are right -/
structure McaisData (L : Lib) (n : ℕ) (A : Mat ℝ) (X : Poly) : Prop where
  nr : A.nr = n
  nc : A.nc = n
  inv : X.Inv n
  noeq : X.C.nr = 0
  origin : X.Mem fun _ => 0
  bounded : IsBounded n X.A X.b X.C X.d
  empty_ok : X.EmptyOk L
  pos : 0 < n

/-- the points from which `x⁺ = A x` stays in `X` for ever -/
def StaysIn (X : Poly) (A : Mat ℝ) (x : ℕ → ℝ) : Prop := ∀ t, X.Mem (orbit A x t)

theorem near_zero {n : ℕ} {X : Poly} (h : X.Mem fun _ => 0) : NearPoint n X.A X.b X.C X.d :=
  ⟨fun _ => 0, h, by norm_num⟩

theorem checks_state {L : Lib} (hL : LibSpec L) {n : ℕ} {A : Mat ℝ} {X X' : Poly} (hd : McaisData L n A X)
    (h : mcaisChecks L A X = .ok X') : X'.A = X.A ∧ X'.b = X.b ∧ X'.C = X.C ∧ X'.d = X.d ∧ X'.EmptyOk L := by
  unfold mcaisChecks at h
  split_ifs at h with h1 h2 h3
  obtain ⟨c, -, hc⟩ := Py.bind_eq_ok h
  split_ifs at hc
  cases hb : Poly.bounded L X with
  | mk r q =>
    rw [hb] at hc
    cases r with
    | error e => cases hc
    | ok r =>
      cases r with
      | false => cases hc
      | true =>
        cases hc
        exact bounded_state hL hd.inv hd.empty_ok (near_zero hd.origin) hb

theorem level_one {X X' : Poly} (A : Mat ℝ) (h : X'.A = X.A ∧ X'.b = X.b ∧ X'.C = X.C ∧ X'.d = X.d ∧ X'.EmptyOk L) :
    Level X A X' 1 := by
  intro x
  have : X'.Mem x ↔ X.Mem x := by unfold Poly.Mem; rw [h.1, h.2.1, h.2.2.1, h.2.2.2.1]
  rw [this]
  exact ⟨fun h s hs => by obtain rfl : s = 0 := by omega
                          exact h, fun h => h 0 (by omega)⟩

/-- what the run of `mcais` before the removal of redundant facets gives -/
theorem before_ok {L : Lib} (hL : LibSpec L) {n : ℕ} {A : Mat ℝ} {X X' : Poly} (hd : McaisData L n A X)
    (h : mcaisChecks L A X = .ok X') (fuel : ℕ) :
    (mcaisBefore L A X fuel = .ok none ∧ ∀ s, 1 ≤ s → s < 1 + fuel →
        ∃ x, (∀ r < s, X.Mem (orbit A x r)) ∧ ¬ X.Mem (orbit A x s)) ∨
      ∃ O t, mcaisBefore L A X fuel = .ok (some O) ∧ O.Inv n ∧ O.C.nr = 0 ∧ O.EmptyOk L ∧ 1 ≤ t ∧ Level X A O t ∧
        (∀ x, O.Mem x → X.Mem (orbit A x t)) ∧ ∀ x, O.Mem x ↔ StaysIn X A x := by
  have hs := checks_state hL hd h
  have e : mcaisBefore L A X fuel = mcaisLoop L A X.A X.b fuel X' 1 := by
    unfold mcaisBefore; rw [h]; rfl
  rw [e]
  have hinv : X'.Inv n := by
    unfold Poly.Inv; rw [hs.1, hs.2.1, hs.2.2.1, hs.2.2.2.1]; exact hd.inv
  rcases loop_ok hL hd.pos hd.nr hd.nc hd.inv hd.noeq hd.origin hd.bounded fuel X' 1 hinv (by rw [hs.2.2.1]; exact hd.noeq) hs.2.2.2.2 le_rfl
    (level_one A hs) with h | ⟨O, t, h1, h2, h3, h4, h5, h6, h7, h8⟩
  · exact .inl h
  · exact .inr ⟨O, t, h1, h2, h3, h4, h5, h7, h8, level_forever h5 h7 h8⟩

/-- the removal of redundant facets at the end of `mcais` -/
theorem after_ok {L : Lib} (hL : LibSpec L) {n : ℕ} {A : Mat ℝ} {X O : Poly} (hd : McaisData L n A X) (hO : O.Inv n)
    (hOC : O.C.nr = 0) (hOE : O.EmptyOk L) (h : ∀ x, O.Mem x ↔ StaysIn X A x) {fuel : ℕ}
    (hb : mcaisBefore L A X fuel = .ok (some O)) :
    ∃ r q, mcais L A X fuel = .ok (some q) ∧ r.Sublist (List.range O.A.nr) ∧ q.A = O.A.rows r ∧ q.b = O.b.take r ∧
      q.C = O.C ∧ q.d = O.d ∧ (∀ x, StaysIn X A x → q.Mem x) ∧
      ((∀ i < O.A.nr, i ∉ r → GapAt O.A O.b O.C O.d 1e-7 {j | j ∈ r ∨ i < j} i) → ∀ x, q.Mem x ↔ StaysIn X A x) := by
  have hz : ∀ t, orbit A (fun _ => 0) t = fun _ => 0 := by
    intro t
    induction t with
    | zero => rfl
    | succ t ih => funext i; rw [orbit, ih]; simp
  have h0 : O.Mem fun _ => 0 := (h _).2 fun t => by rw [hz]; exact hd.origin
  obtain ⟨-, r, q, h1, h2, h3, h4, h5, h6, h7, h8⟩ := C09 L hL n O hO (Poly.hasRows_of_bounded hd.pos ⟨hd.bounded.choose, fun x hx => hd.bounded.choose_spec x ((h x).1 hx 0)⟩) hOE (near_zero h0) (.inl hOC)
  refine ⟨r, q, ?_, h2, h3, h4, h5, h6, fun x hx => h7 x ((h x).2 hx), fun hg x => (h8 hg x).trans (h x)⟩
  unfold mcais
  rw [hb, Py.ok_bind]
  simp only
  rw [Poly.runOn, h1]
  rfl

/-- C54: before the removal of redundant facets, the result of `mcais` is exactly the set of the points from which the system
stays in `X` for ever.  The final result always contains this set, and equals it when no removed facet cuts off points by less
than the tolerance.  When the checks of `mcais` pass, it does not raise. -/
theorem C54 (L : Lib) (hL : LibSpec L) (n : ℕ) (A : Mat ℝ) (X : Poly) (hd : McaisData L n A X) :
    (∀ X' fuel, mcaisChecks L A X = .ok X' → mcais L A X fuel = .ok none ∨ ∃ O, mcais L A X fuel = .ok (some O)) ∧
    ∀ fuel O, mcais L A X fuel = .ok (some O) →
      ∃ Ob r, mcaisBefore L A X fuel = .ok (some Ob) ∧ (∀ x, Ob.Mem x ↔ StaysIn X A x) ∧
        r.Sublist (List.range Ob.A.nr) ∧ O.A = Ob.A.rows r ∧ O.b = Ob.b.take r ∧ O.C = Ob.C ∧ O.d = Ob.d ∧
        (∀ x, StaysIn X A x → O.Mem x) ∧
        ((∀ i < Ob.A.nr, i ∉ r → GapAt Ob.A Ob.b Ob.C Ob.d 1e-7 {j | j ∈ r ∨ i < j} i) → ∀ x, O.Mem x ↔ StaysIn X A x) := by
  constructor
  · intro X' fuel hc
    rcases before_ok hL hd hc fuel with ⟨h, -⟩ | ⟨O, t, h1, h2, h3, h4, h5, h6, h7, h8⟩
    · left
      unfold mcais
      rw [h]; rfl
    · right
      obtain ⟨r, q, k1, -⟩ := after_ok hL hd h2 h3 h4 h8 h1
      exact ⟨q, k1⟩
  · intro fuel O h
    have h' := h
    unfold mcais mcaisBefore at h'
    obtain ⟨_, h', -⟩ := Py.bind_eq_ok h'
    obtain ⟨X', hc, -⟩ := Py.bind_eq_ok h'
    rcases before_ok hL hd hc fuel with ⟨h1, -⟩ | ⟨Ob, t, h1, h2, h3, h4, h5, h6, h7, h8⟩
    · unfold mcais at h
      rw [h1] at h; cases h
    · obtain ⟨r, q, k1, k2, k3, k4, k5, k6, k7, k8⟩ := after_ok hL hd h2 h3 h4 h8 h1
      rw [k1] at h
      cases h
      exact ⟨Ob, r, h1, h8, k2, k3, k4, k5, k6, k7, k8⟩

end Verif.Props
