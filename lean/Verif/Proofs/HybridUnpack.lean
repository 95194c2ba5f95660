import Verif.Proofs.HybridOpt
import Verif.Props.MiSolve

/- What `feedforward` of the hybrid controller returns. -/
namespace Verif
namespace Control
open Finset Spec Dyn
namespace HMPC

theorem foldlM_addV {n : ℕ} : ∀ (l : List (Vec ℝ)) (v : Vec ℝ), v.n = n → (∀ w ∈ l, w.n = n) →
    ∃ r, l.foldlM np.addV v = .ok r ∧ r.n = n ∧ ∀ k, r.e k = v.e k + (l.map fun w => w.e k).sum
  | [], v, hv, _ => ⟨v, rfl, hv, fun k => by simp⟩
  | w :: l, v, hv, hl => by
    have k1 : np.addV v w = .ok (v.add w) := if_pos (by rw [hv, hl w (by simp)])
    obtain ⟨r, r1, r2, r3⟩ := foldlM_addV l (v.add w) hv fun w hw => hl w (by simp [hw])
    refine ⟨r, ?_, r2, fun k => ?_⟩
    · rw [List.foldlM_cons, k1]
      exact r1
    · rw [r3, List.map_cons, List.sum_cons, show (v.add w).e k = v.e k + w.e k from rfl]
      ring

theorem sum0_ok {n : ℕ} {l : List (Vec ℝ)} (hne : l ≠ []) (hl : ∀ w ∈ l, w.n = n) :
    ∃ r, sum0 l = .ok r ∧ r.n = n ∧ ∀ k, r.e k = (l.map fun w => w.e k).sum := by
  cases l with
  | nil => exact absurd rfl hne
  | cons v l =>
    obtain ⟨r, r1, r2, r3⟩ := foldlM_addV l v (hl v (by simp)) fun w hw => hl w (by simp [hw])
    exact ⟨r, r1, r2, fun k => by rw [r3, List.map_cons, List.sum_cons]⟩

theorem slices_mem {u : Vec ℝ} {n N : ℕ} (hu : u.n = n * N) {w : Vec ℝ} (hw : w ∈ MPC.slices u n N) : w.n = n := by
  obtain ⟨i, hi, rfl⟩ := List.mem_map.1 hw
  have := blk_le (m := n) (List.mem_range.1 hi)
  show min (n * (i + 1)) u.n - n * i = n
  rw [Nat.mul_succ]
  omega

theorem slices_getD {u v0 : Vec ℝ} {n N t : ℕ} (ht : t < N) : (MPC.slices u n N).getD t v0 = u.slice (n * t) (n * (t + 1)) := by
  unfold MPC.slices
  rw [List.getD_eq_getElem _ _ (by simpa using ht)]
  simp

theorem modeOf_ok {d : Vec ℝ} {m : ℕ} (hm : m < d.n) (hd : ∀ i < d.n, d.e i = if i = m then 1 else 0) : modeOf d = .ok m := by
  unfold modeOf whereGt
  set l := (List.range d.n).filter fun i => decide (d.e i > 1 / 2) with hl
  have h1 : ∀ i ∈ l, i = m := fun i hi => by
    obtain ⟨a, b⟩ := List.mem_filter.1 hi
    have b := of_decide_eq_true b
    rw [hd i (List.mem_range.1 a)] at b
    by_contra hne
    rw [if_neg hne] at b
    norm_num at b
  have h2 : m ∈ l := List.mem_filter.2 ⟨List.mem_range.2 hm, decide_eq_true (by rw [hd m hm, if_pos rfl]; norm_num)⟩
  cases hc : l with
  | nil => rw [hc] at h2; cases h2
  | cons a l' =>
    have := h1 a (by rw [hc]; simp)
    subst this
    rfl

/-- the lists that are returned for a solution with the modes `m` -/
theorem unpack_ok {S : PWA} {N : ℕ} {x u z d : Vec ℝ} {V : ℝ} {m : ℕ → ℕ} (hpos : 0 < S.nm) (hu : u.n = S.nu * N) (hz : z.n = S.nx * S.nm * N)
    (hd : d.n = S.nm * N) (hm : ∀ t < N, m t < S.nm ∧ ∀ i < S.nm, d.e (S.nm * t + i) = if i = m t then 1 else 0) :
    ∃ a, unpack S N x u z d V = .ok a ∧ a.V = V ∧ a.u.length = N ∧ (∀ w ∈ a.u, w.n = S.nu) ∧
      (∀ t < N, inputsOf a.u t = unflat S.nu u.e t) ∧ a.modes.length = N ∧ (∀ t < N, a.modes.getD t 0 = m t) ∧
      a.x.length = N + 1 ∧ a.x.getD 0 vec0 = x ∧
      (∀ t < N, (a.x.getD (t + 1) vec0).n = S.nx ∧ ∀ k, (a.x.getD (t + 1) vec0).e k = ∑ i ∈ range S.nm, z.e (S.nx * S.nm * t + (S.nx * i + k))) := by
  have h1 : ∀ w ∈ MPC.slices z (S.nx * S.nm) N, ∃ r, sum0 (MPC.slices w S.nx S.nm) = .ok r ∧ r.n = S.nx ∧
      ∀ k, r.e k = ((MPC.slices w S.nx S.nm).map fun w => w.e k).sum := fun w hw =>
    sum0_ok (by intro e; have := congrArg List.length e; simp [MPC.slices] at this; omega) fun v hv => slices_mem (slices_mem hz hw) hv
  choose! r r1 r2 r3 using h1
  have e1 : ((MPC.slices z (S.nx * S.nm) N).mapM fun z => sum0 (MPC.slices z S.nx S.nm)) = .ok ((MPC.slices z (S.nx * S.nm) N).map r) :=
    mapM_ok r1
  have h2 : ∀ w ∈ MPC.slices d S.nm N, ∃ i, modeOf w = .ok i := by
    intro w hw
    have hwn := slices_mem hd hw
    obtain ⟨t, ht, rfl⟩ := List.mem_map.1 hw
    exact ⟨m t, modeOf_ok (by rw [hwn]; exact (hm t (List.mem_range.1 ht)).1) fun i hi =>
      (hm t (List.mem_range.1 ht)).2 i (by rw [hwn] at hi; exact hi)⟩
  choose! g hg using h2
  have e2 : (MPC.slices d S.nm N).mapM modeOf = .ok ((MPC.slices d S.nm N).map g) := mapM_ok hg
  refine ⟨⟨MPC.slices u S.nu N, x :: (MPC.slices z (S.nx * S.nm) N).map r, (MPC.slices d S.nm N).map g, V⟩, ?_, rfl, by simp [MPC.slices],
    fun w hw => slices_mem hu hw, fun t ht => ?_, by simp [MPC.slices], fun t ht => ?_, by simp [MPC.slices], rfl, fun t ht => ?_⟩
  · unfold unpack
    rw [e1, Py.ok_bind, e2, Py.ok_bind]
    rfl
  · unfold inputsOf
    rw [slices_getD ht]
    rfl
  · have hlen : t < (MPC.slices d S.nm N).length := by simpa [MPC.slices] using ht
    have hmem : d.slice (S.nm * t) (S.nm * (t + 1)) ∈ MPC.slices d S.nm N := List.mem_map.2 ⟨t, List.mem_range.2 ht, rfl⟩
    have hwn := slices_mem hd hmem
    show ((MPC.slices d S.nm N).map g).getD t 0 = m t
    rw [List.getD_eq_getElem _ _ (by simpa using hlen), List.getElem_map, ← List.getD_eq_getElem _ vec0 hlen, slices_getD ht]
    have a := hg _ hmem
    have b : modeOf (d.slice (S.nm * t) (S.nm * (t + 1))) = .ok (m t) := modeOf_ok (by rw [hwn]; exact (hm t ht).1) fun i hi =>
      (hm t ht).2 i (by rw [hwn] at hi; exact hi)
    rw [a] at b
    exact Except.ok.inj b
  · have hlen : t < (MPC.slices z (S.nx * S.nm) N).length := by simpa [MPC.slices] using ht
    have hmem : z.slice (S.nx * S.nm * t) (S.nx * S.nm * (t + 1)) ∈ MPC.slices z (S.nx * S.nm) N := List.mem_map.2 ⟨t, List.mem_range.2 ht, rfl⟩
    show (((MPC.slices z (S.nx * S.nm) N).map r).getD t vec0).n = S.nx ∧ ∀ k, (((MPC.slices z (S.nx * S.nm) N).map r).getD t vec0).e k = _
    rw [List.getD_eq_getElem _ _ (by simpa using hlen), List.getElem_map, ← List.getD_eq_getElem _ vec0 hlen, slices_getD ht]
    refine ⟨r2 _ hmem, fun k => ?_⟩
    rw [r3 _ hmem]
    unfold MPC.slices
    rw [List.map_map, sum_map_range]
    rfl

end HMPC
end Control
end Verif
