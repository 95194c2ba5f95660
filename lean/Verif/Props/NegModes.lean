import Verif.Model.NegModes
import Verif.Props.CondensedOcp

/- Mode sequences with negative modes (C148). -/
namespace Verif.Props
open Finset Spec Dyn Control

/-- the integer `i` selects the element number `k` of a list of length `s` -/
def ModeOf (s : ℕ) (i : ℤ) (k : ℕ) : Prop := k < s ∧ ((k : ℤ) = i ∨ (k : ℤ) = i + s)

theorem listGetZ_ok {α : Type} {l : List α} {i : ℤ} {k : ℕ} (h : ModeOf l.length i k) : np.listGetZ l i = np.listGet l k := by
  obtain ⟨h1, h2⟩ := h
  have e : np.position l.length i = .ok k := by
    unfold np.position
    rcases h2 with h2 | h2
    · rw [if_pos (by omega)]
      congr 1
      omega
    · rw [if_neg (by omega), if_pos (by omega)]
      congr 1
      omega
  unfold np.listGetZ
  rw [e, Py.ok_bind]

theorem listGetZ_error {α : Type} {l : List α} {i : ℤ} (h : i < -l.length ∨ (l.length : ℤ) ≤ i) : np.listGetZ l i = .error .indexError := by
  unfold np.listGetZ np.position
  rw [if_neg (by omega), if_neg (by omega)]
  rfl

theorem listGetZ_cases {α : Type} (l : List α) (i : ℤ) : (∃ a, np.listGetZ l i = .ok a) ∨ np.listGetZ l i = .error .indexError := by
  by_cases h : i < -l.length ∨ (l.length : ℤ) ≤ i
  · exact .inr (listGetZ_error h)
  · push Not at h
    obtain ⟨k, hk⟩ : ∃ k, ModeOf l.length i k := by
      rcases lt_or_ge i 0 with h0 | h0
      · exact ⟨(i + l.length).toNat, by omega, .inr (by omega)⟩
      · exact ⟨i.toNat, by omega, .inl (by omega)⟩
    rw [listGetZ_ok hk]
    refine .inl ⟨l[k]'hk.1, ?_⟩
    unfold np.listGet
    rw [List.getElem?_eq_getElem hk.1]

theorem mapZ_ok {α : Type} {l : List α} {modes : List ℤ} {ks : List ℕ} (h : List.Forall₂ (ModeOf l.length) modes ks) :
    modes.mapM (np.listGetZ l) = ks.mapM (np.listGet l) := by
  induction h with
  | nil => rfl
  | cons h1 _ ih => rw [List.mapM_cons, List.mapM_cons, ih, listGetZ_ok h1]

theorem mapZ_error {α : Type} {l : List α} {modes : List ℤ} (h : ∃ i ∈ modes, i < -l.length ∨ (l.length : ℤ) ≤ i) :
    modes.mapM (np.listGetZ l) = .error .indexError := by
  induction modes with
  | nil => obtain ⟨i, hi, -⟩ := h; cases hi
  | cons m modes ih =>
    rw [List.mapM_cons]
    rcases listGetZ_cases l m with ⟨a, e⟩ | e
    · rw [e, Py.ok_bind, ih ?_]
      · rfl
      · obtain ⟨i, hi, h⟩ := h
        rcases List.mem_cons.1 hi with rfl | hi
        · rw [listGetZ_error h] at e
          cases e
        · exact ⟨i, hi, h⟩
    · rw [e]
      rfl

/-- C148: mode sequences of integers.  Modes from `-s` to `-1` are the last ones of the `s` modes: `condense` and `get_mpqp` give the same as for the nonnegative numbers of the modes; if some
mode is out of this range then both raise `IndexError`, and for the empty sequence both raise `ValueError`. -/
theorem C148 (S : PWA) (hlen : S.affine_systems.length = S.domains.length) (modes : List ℤ) :
    (∀ ks, List.Forall₂ (ModeOf S.domains.length) modes ks → S.condenseZ modes = S.condense ks ∧
      ∀ c : HMPC, c.S = S → c.get_mpqpZ modes = c.get_mpqp ks) ∧
    ((∃ i ∈ modes, i < -S.domains.length ∨ (S.domains.length : ℤ) ≤ i) → S.condenseZ modes = .error .indexError ∧
      ∀ c : HMPC, c.S = S → c.get_mpqpZ modes = .error .indexError) ∧
    (modes = [] → S.domains ≠ [] → S.condenseZ modes = .error .valueError ∧ ∀ c : HMPC, c.S = S → c.get_mpqpZ modes = .error .valueError) := by
  refine ⟨fun ks h => ?_, fun h => ?_, fun h hne => ?_⟩
  · have e : S.condenseZ modes = S.condense ks := by
      unfold PWA.condenseZ PWA.condense condense_pwa_systemZ condense_pwa_system
      rw [mapZ_ok (hlen ▸ h), h.length_eq]
    refine ⟨e, fun c hc => ?_⟩
    unfold HMPC.get_mpqpZ HMPC.get_mpqp condense_optimal_control_problemZ condense_optimal_control_problem
    rw [hc, e, mapZ_ok h, h.length_eq]
  · have e : S.condenseZ modes = .error .indexError := by
      unfold PWA.condenseZ condense_pwa_systemZ
      rw [mapZ_error (hlen ▸ h)]
      unfold np.listGet
      cases S.affine_systems[0]? <;> rfl
    refine ⟨e, fun c hc => ?_⟩
    unfold HMPC.get_mpqpZ condense_optimal_control_problemZ
    rw [hc, e]
    rfl
  · subst h
    have e : S.condenseZ [] = .error .valueError := by
      unfold PWA.condenseZ condense_pwa_systemZ
      have hpos : 0 < S.affine_systems.length := by
        rw [hlen]
        exact List.length_pos_iff.2 hne
      unfold np.listGet
      rw [List.getElem?_eq_getElem hpos]
      rfl
    refine ⟨e, fun c hc => ?_⟩
    unfold HMPC.get_mpqpZ condense_optimal_control_problemZ
    rw [hc, e]
    rfl

/-- C148 with two modes: `-1` is the second mode and `-2` the first one, so that `[-2, 1, -2]` and `[0, 1, 0]` give the same program, which exists (C62); `2` and `-3` are out of range -/
example (c : HMPC) (hc : c.S = twoModes) (hQ : c.Q = one1) (hR : c.R = one1) (hP : c.P = one1) (hX : c.X_N = interval1) :
    (∃ q, c.get_mpqpZ [-2, 1, -2] = .ok q ∧ c.get_mpqpZ [0, -1, 0] = .ok q) ∧ c.get_mpqpZ [0, 2] = .error .indexError ∧ c.get_mpqpZ [-3] = .error .indexError ∧
      c.get_mpqpZ [] = .error .valueError := by
  obtain ⟨q, hq⟩ := (C62 _ _ _ _ _ _ twoModes_shape).1 weights1
  have e : c.get_mpqp [0, 1, 0] = .ok q := by
    unfold HMPC.get_mpqp
    rw [hc, hQ, hR, hP, hX]
    exact hq
  refine ⟨⟨q, ?_, ?_⟩, ?_, ?_, ?_⟩
  · rw [← e]
    exact ((C148 twoModes rfl _).1 [0, 1, 0] (by simp [twoModes, ModeOf])).2 c hc
  · rw [← e]
    exact ((C148 twoModes rfl _).1 [0, 1, 0] (by simp [twoModes, ModeOf])).2 c hc
  · exact ((C148 twoModes rfl _).2.1 ⟨2, by simp, by simp [twoModes]⟩).2 c hc
  · exact ((C148 twoModes rfl _).2.1 ⟨-3, by simp, by simp [twoModes]⟩).2 c hc
  · exact ((C148 twoModes rfl _).2.2 rfl (by simp [twoModes])).2 c hc

end Verif.Props
