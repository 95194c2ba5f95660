import Verif.Spec.Drawing
import Verif.Proofs.Gurobi

/- The plots of trajectories and of inputs. -/
namespace Verif
open Finset
namespace Plot

theorem mem_segment {x y x' y' : ℝ} {p : ℝ × ℝ} :
    p ∈ segment ℝ (x, y) (x', y') ↔ ∃ s : ℝ, 0 ≤ s ∧ s ≤ 1 ∧ p.1 = (1 - s) * x + s * x' ∧ p.2 = (1 - s) * y + s * y' := by
  rw [segment_eq_image]
  constructor
  · rintro ⟨s, hs, rfl⟩
    exact ⟨s, hs.1, hs.2, by simp, by simp⟩
  · rintro ⟨s, h0, h1, e1, e2⟩
    exact ⟨s, ⟨h0, h1⟩, Prod.ext (by simp [e1]) (by simp [e2])⟩

theorem listGet_ok {α : Type} {l : List α} {i : ℕ} {a : α} (h : l[i]? = some a) : np.listGet l i = .ok a := by
  unfold np.listGet
  rw [h]

theorem coord_ok {v : Vec ℝ} {i : ℕ} (h : i < v.n) : coord v i = .ok (v.e i) := if_pos h

/-- the instants `0, h, .., N h` -/
theorem linspace_get (N : ℕ) (h : ℝ) (k : ℕ) : (linspace 0 (N * h) (N + 1))[k]? = if k ≤ N then some ((k : ℝ) * h) else none := by
  unfold linspace
  rw [List.getElem?_map]
  split_ifs with hk
  · rw [List.getElem?_range (by omega)]
    simp only [Option.map_some]
    congr 1
    rcases Nat.eq_zero_or_pos N with rfl | hN
    · obtain rfl : k = 0 := by omega
      simp
    · have : (N : ℝ) ≠ 0 := by positivity
      push_cast
      field_simp
      ring_nf
      field_simp
  · rw [List.getElem?_eq_none (by simpa using by omega)]
    rfl

theorem linspace_length (a b : ℝ) (n : ℕ) : (linspace a b n).length = n := by simp [linspace]

/-- no command of the list selects a panel -/
def Flat (l : List Cmd) : Prop := ∀ c ∈ l, ∀ n i, c ≠ .subplot n i

theorem onPanel_flat {k : ℕ} {cur : Option ℕ} {l rest : List Cmd} (h : Flat l) :
    Spec.onPanel k cur (l ++ rest) = (if cur = some k then l else []) ++ Spec.onPanel k cur rest := by
  induction l with
  | nil => simp
  | cons c l ih =>
    have hl : Flat l := fun c' hc' => h c' (List.mem_cons_of_mem _ hc')
    have hc := h c (by simp)
    have : Spec.onPanel k cur (c :: (l ++ rest)) = if cur = some k then c :: Spec.onPanel k cur (l ++ rest) else Spec.onPanel k cur (l ++ rest) := by
      cases c <;> first | rfl | exact absurd rfl (hc _ _)
    rw [List.cons_append, this, ih hl]
    split_ifs <;> rfl

/-- the commands of the panels one after the other, and further commands without ink -/
theorem mem_onPanel {n k : ℕ} {P : ℕ → List Cmd} {tail : List Cmd} (hP : ∀ i, Flat (P i)) (ht : Flat tail) {c : Cmd} (hc : c ∉ tail) (l : List ℕ)
    (cur : Option ℕ) :
    c ∈ Spec.onPanel k cur ((l.map fun i => .subplot n i :: P i).flatten ++ tail) ↔ k ∈ l ∧ c ∈ P k := by
  induction l generalizing cur with
  | nil =>
    have := onPanel_flat (k := k) (cur := cur) (rest := []) ht
    rw [List.append_nil] at this
    rw [List.map_nil, List.flatten_nil, List.nil_append, this]
    constructor
    · intro h
      rcases List.mem_append.1 h with h | h
      · split_ifs at h
        · exact absurd h hc
        · cases h
      · cases h
    · rintro ⟨h, -⟩; cases h
  | cons i l ih =>
    have e : ((i :: l).map fun i => Cmd.subplot n i :: P i).flatten ++ tail = .subplot n i :: (P i ++ ((l.map fun i => Cmd.subplot n i :: P i).flatten ++ tail)) := by
      simp
    rw [e]
    show c ∈ Spec.onPanel k (some i) (P i ++ _) ↔ _
    rw [onPanel_flat (hP i), List.mem_append, ih]
    by_cases h : i = k
    · subst h
      simp only [if_true, List.mem_cons, true_or, true_and]
      tauto
    · have : ¬ (some i = some k) := fun h' => h (Option.some.inj h')
      rw [if_neg this]
      simp only [List.mem_cons, List.not_mem_nil, false_or, Ne.symm h]

/-- the lines of the bounds -/
theorem boundCmds_ok {t : List ℝ} {i : ℕ} {bounds : Option (List (Vec ℝ))} (h : ∀ b ∈ bounds.getD [], i < b.n) :
    boundCmds t i bounds = .ok ((bounds.getD []).map fun b => .step t (List.replicate t.length (b.e i)) "r") := by
  unfold boundCmds
  refine mapM_ok fun b hb => ?_
  rw [coord_ok (h b hb), Py.ok_bind]
  exact if_pos (by simp)

theorem legendCmds_ok (i : ℕ) {bounds : Option (List (Vec ℝ))} (h : bounds ≠ some []) (s s' : String) :
    ∃ l, legendCmds i bounds s s' = .ok l ∧ Flat l ∧ ∀ c ∈ l, Spec.style c = none := by
  unfold legendCmds
  by_cases hi : i = 0
  · rw [if_pos hi]
    match bounds, h with
    | none, _ => exact ⟨_, rfl, by simp [Flat], by simp [Spec.style]⟩
    | some (_ :: _), _ => exact ⟨_, rfl, by simp [Flat], by simp [Spec.style]⟩
  · rw [if_neg hi]
    exact ⟨[], rfl, by simp [Flat], by simp⟩

/-- a horizontal line over the instants `0, h, .., N h` -/
theorem ink_const {N : ℕ} {h : ℝ} (hh : 0 < h) (hN : 0 < N) (a : ℝ) (s : String) (p : ℝ × ℝ) :
    p ∈ Spec.ink (.step (linspace 0 (N * h) (N + 1)) (List.replicate (linspace 0 (N * h) (N + 1)).length a) s) ↔
      (0 ≤ p.1 ∧ p.1 ≤ N * h) ∧ p.2 = a := by
  have hrep : ∀ k, (List.replicate (linspace 0 (N * h) (N + 1)).length a)[k]? = if k ≤ N then some a else none := fun k => by
    rw [linspace_length, List.getElem?_replicate]
    by_cases hk : k ≤ N
    · rw [if_pos hk, if_pos (by omega)]
    · rw [if_neg hk, if_neg (by omega)]
  constructor
  · rintro ⟨k, x, y, x', y', h1, h2, h3, h4, hp⟩
    rw [linspace_get] at h1 h3
    rw [hrep] at h2 h4
    split_ifs at h1 h2 h3 h4 with hk hk'
    simp only [Option.some.injEq] at h1 h2 h3 h4
    subst h1 h2 h3 h4
    have hkN : ((k + 1 : ℕ) : ℝ) * h ≤ N * h := mul_le_mul_of_nonneg_right (by exact_mod_cast hk') hh.le
    have hk0 : 0 ≤ (k : ℝ) * h := by positivity
    push_cast at hkN hp
    rcases hp with hp | hp
    · obtain ⟨s, s0, s1, e1, e2⟩ := mem_segment.1 hp
      have : p.1 = k * h := by rw [e1]; ring
      exact ⟨⟨by linarith, by linarith⟩, by rw [e2]; ring⟩
    · obtain ⟨s, s0, s1, e1, e2⟩ := mem_segment.1 hp
      have : p.1 = k * h + s * h := by rw [e1]; ring
      have h1 : s * h ≤ 1 * h := mul_le_mul_of_nonneg_right s1 hh.le
      have h2 : 0 ≤ s * h := by positivity
      exact ⟨⟨by linarith, by linarith⟩, by rw [e2]; ring⟩
  · rintro ⟨⟨h0, h1⟩, h2⟩
    -- the step that contains the instant
    obtain ⟨k, hk, k0, k1⟩ : ∃ k < N, (k : ℝ) * h ≤ p.1 ∧ p.1 ≤ ((k : ℝ) + 1) * h := by
      by_cases hlt : p.1 < N * h
      · have hfl := Nat.floor_le (div_nonneg h0 hh.le)
        have hfl' := Nat.lt_floor_add_one (p.1 / h)
        refine ⟨⌊p.1 / h⌋₊, ?_, ?_, ?_⟩
        · rw [Nat.floor_lt (div_nonneg h0 hh.le), div_lt_iff₀ hh]
          exact hlt
        · rwa [le_div_iff₀ hh] at hfl
        · rw [div_lt_iff₀ hh] at hfl'
          exact hfl'.le
      · have he : p.1 = N * h := le_antisymm h1 (not_lt.1 hlt)
        refine ⟨N - 1, by omega, ?_, ?_⟩
        · rw [he]
          exact mul_le_mul_of_nonneg_right (by exact_mod_cast Nat.sub_le N 1) hh.le
        · rw [he]
          have : ((N - 1 : ℕ) : ℝ) + 1 = N := by exact_mod_cast Nat.succ_pred_eq_of_pos hN
          rw [this]
    refine ⟨k, k * h, a, ((k + 1 : ℕ) : ℝ) * h, a, by rw [linspace_get, if_pos hk.le], by rw [hrep, if_pos hk.le],
      by rw [linspace_get, if_pos (by omega)], by rw [hrep, if_pos (by omega)], Or.inr ?_⟩
    refine mem_segment.2 ⟨(p.1 - k * h) / h, by apply div_nonneg _ hh.le; linarith, ?_, ?_, by rw [h2]; ring⟩
    · rw [div_le_one hh]; linarith
    · push_cast
      field_simp
      ring

/-- the command of `plot_input_sequence` for one input: between `k h` and `(k+1) h` the line has the value `ys[k+1]` -/
theorem ink_step {N : ℕ} {h : ℝ} (hh : 0 < h) {ys : List ℝ} (hy : ys.length = N + 1) (s : String) {k : ℕ} {w : ℝ} (hw : ys[k + 1]? = some w) {τ : ℝ}
    (h0 : k * h < τ) (h1 : τ < (k + 1) * h) (v : ℝ) : (τ, v) ∈ Spec.ink (.step (linspace 0 (N * h) (N + 1)) ys s) ↔ v = w := by
  have hk : k + 1 ≤ N := by
    by_contra hne
    rw [List.getElem?_eq_none (by omega)] at hw
    cases hw
  constructor
  · rintro ⟨m, x, y, x', y', e1, e2, e3, e4, hp⟩
    rw [linspace_get] at e1 e3
    split_ifs at e1 e3 with hm hm'
    simp only [Option.some.injEq] at e1 e3
    subst e1 e3
    push_cast at hp
    rcases hp with hp | hp
    · obtain ⟨s, s0, s1, q1, q2⟩ := mem_segment.1 hp
      have q : τ = m * h := by
        have : τ = (1 - s) * (m * h) + s * (m * h) := q1
        rw [this]; ring
      rw [q] at h0 h1
      have a1 := lt_of_mul_lt_mul_right h0 hh.le
      have a2 := lt_of_mul_lt_mul_right h1 hh.le
      have b1 : k < m := by exact_mod_cast a1
      have b2 : m < k + 1 := by exact_mod_cast a2
      omega
    · obtain ⟨s, s0, s1, q1, q2⟩ := mem_segment.1 hp
      have q : τ = (m + s) * h := by
        have : τ = (1 - s) * (m * h) + s * ((m + 1) * h) := q1
        rw [this]; ring
      rw [q] at h0 h1
      have a1 := lt_of_mul_lt_mul_right h0 hh.le
      have a2 := lt_of_mul_lt_mul_right h1 hh.le
      have b1 : k < m + 1 := by
        have : (k : ℝ) < m + 1 := by linarith
        exact_mod_cast this
      have b2 : m < k + 1 := by
        have : (m : ℝ) < k + 1 := by linarith
        exact_mod_cast this
      obtain rfl : m = k := by omega
      rw [hw] at e4
      obtain rfl := Option.some.inj e4
      have : v = (1 - s) * w + s * w := q2
      rw [this]; ring
  · rintro rfl
    have hyk : ys[k]? = some (ys[k]'(by omega)) := List.getElem?_eq_getElem _
    refine ⟨k, k * h, _, ((k + 1 : ℕ) : ℝ) * h, v, by rw [linspace_get, if_pos (by omega)], hyk, by rw [linspace_get, if_pos hk], hw, Or.inr ?_⟩
    refine mem_segment.2 ⟨(τ - k * h) / h, by apply div_nonneg _ hh.le; linarith, ?_, ?_, by ring⟩
    · rw [div_le_one hh]; linarith
    · push_cast
      field_simp
      ring

/-- the line of `plot_state_trajectory` for one state interpolates the values -/
theorem ink_line {N : ℕ} {h : ℝ} (hh : 0 < h) {ys : List ℝ} (hy : ys.length = N + 1) (s : String) (l : Option String) {k : ℕ} {w w' : ℝ}
    (hw : ys[k]? = some w) (hw' : ys[k + 1]? = some w') {σ : ℝ} (h0 : 0 ≤ σ) (h1 : σ ≤ 1) (v : ℝ) :
    ((k + σ) * h, v) ∈ Spec.ink (.plot (linspace 0 (N * h) (N + 1)) ys s l) ↔ v = (1 - σ) * w + σ * w' := by
  have hk : k + 1 ≤ N := by
    by_contra hne
    rw [List.getElem?_eq_none (by omega)] at hw'
    cases hw'
  constructor
  · rintro ⟨m, x, y, x', y', e1, e2, e3, e4, hp⟩
    rw [linspace_get] at e1 e3
    split_ifs at e1 e3 with hm hm'
    simp only [Option.some.injEq] at e1 e3
    subst e1 e3
    push_cast at hp
    obtain ⟨t, t0, t1, q1, q2⟩ := mem_segment.1 hp
    have q1' : (k + σ) * h = (1 - t) * (m * h) + t * ((m + 1) * h) := q1
    have q : (k : ℝ) + σ = m + t := by
      have : (k + σ) * h = (m + t) * h := by rw [q1']; ring
      exact mul_right_cancel₀ hh.ne' this
    have q2' : v = (1 - t) * y + t * y' := q2
    rcases lt_trichotomy m k with hmk | rfl | hmk
    · -- the end of the previous piece
      have c1 : (m : ℝ) + 1 ≤ k := by exact_mod_cast hmk
      have c2 : t = 1 := by linarith
      have c3 : σ = 0 := by linarith
      have c4 : (m : ℝ) + 1 = k := by linarith
      have c5 : m + 1 = k := by exact_mod_cast c4
      rw [c5, hw] at e4
      obtain rfl := Option.some.inj e4
      rw [q2', c2, c3]; ring
    · rw [hw] at e2
      rw [hw'] at e4
      obtain rfl := Option.some.inj e2
      obtain rfl := Option.some.inj e4
      have : σ = t := by linarith
      rw [q2', this]
    · have c1 : (k : ℝ) + 1 ≤ m := by exact_mod_cast hmk
      have c2 : t = 0 := by linarith
      have c3 : σ = 1 := by linarith
      have c4 : (k : ℝ) + 1 = m := by linarith
      have c5 : k + 1 = m := by exact_mod_cast c4
      rw [← c5, hw'] at e2
      obtain rfl := Option.some.inj e2
      rw [q2', c2, c3]; ring
  · rintro rfl
    refine ⟨k, k * h, w, ((k + 1 : ℕ) : ℝ) * h, w', by rw [linspace_get, if_pos (by omega)], hw, by rw [linspace_get, if_pos hk], hw', ?_⟩
    refine mem_segment.2 ⟨σ, h0, h1, ?_, rfl⟩
    push_cast
    ring

/-- the segment at time `t` -/
def seg (P : ℕ → Vec ℝ) (i j t : ℕ) (l : Option String) : Cmd := .plot [(P t).e i, (P (t + 1)).e i] [(P t).e j, (P (t + 1)).e j] "" l

/-- the text at time `t` -/
def txt (P : ℕ → Vec ℝ) (t : ℕ) : Cmd := .text ((P t).e 0) ((P t).e 1) ("$x(" ++ toString t ++ ")$")

theorem trajectory_cmds (x : List (Vec ℝ)) (i j : ℕ) (text : Bool) (label : Option String) (hne : x ≠ [])
    (hv : ∀ v ∈ x, i < v.n ∧ j < v.n ∧ (text = true → 2 ≤ v.n)) :
    ∃ P : ℕ → Vec ℝ, (∀ t < x.length, x[t]? = some (P t) ∧ P t ∈ x) ∧ ∃ cmds, plot_state_space_trajectory x [i, j] text label = .ok cmds ∧
      ∀ c, c ∈ cmds ↔ (∃ t, t + 1 < x.length ∧ (c = seg P i j t none ∨ t = 0 ∧ c = seg P i j 0 label)) ∨ (text = true ∧ ∃ t < x.length, c = txt P t) ∨
        c = .scatter ((P 0).e i) ((P 0).e j) ∨ c = .xlabel (axis "x" (i + 1)) ∨ c = .ylabel (axis "x" (j + 1)) := by
  have hget : ∀ t < x.length, ∃ v, x[t]? = some v ∧ v ∈ x := fun t ht => ⟨x[t], List.getElem?_eq_getElem ht, List.getElem_mem ht⟩
  -- the segment at time `t`
  set P : ℕ → Vec ℝ := fun t => x.getD t ⟨0, fun _ => 0⟩ with hP
  have hPg : ∀ t < x.length, x[t]? = some (P t) ∧ P t ∈ x := fun t ht => by
    obtain ⟨v, h1, h2⟩ := hget t ht
    have : P t = v := by rw [hP]; simp only [List.getD_eq_getElem?_getD, h1, Option.getD_some]
    rw [this]; exact ⟨h1, h2⟩
  set S : ℕ → Option String → Cmd := seg P i j with hS
  have hseg : ∀ t, t + 1 < x.length → ∀ l, segmentOf x i j t l = .ok (S t l) := fun t ht l => by
    obtain ⟨g1, m1⟩ := hPg t (by omega)
    obtain ⟨g2, m2⟩ := hPg (t + 1) ht
    unfold segmentOf
    rw [listGet_ok g1, Py.ok_bind, listGet_ok g2, Py.ok_bind, coord_ok (hv _ m1).1, Py.ok_bind, coord_ok (hv _ m2).1, Py.ok_bind,
      coord_ok (hv _ m1).2.1, Py.ok_bind, coord_ok (hv _ m2).2.1, Py.ok_bind]
    rfl
  set G : ℕ → List Cmd := fun t => if t = 0 then [S 0 label, S t none] else [S t none] with hG
  have hsegs : (List.range (x.length - 1)).mapM (segmentCmds x i j label) = .ok ((List.range (x.length - 1)).map G) := by
    refine mapM_ok fun t ht => ?_
    have ht := List.mem_range.1 ht
    unfold segmentCmds
    rw [hseg t (by omega), Py.ok_bind]
    by_cases h0 : t = 0
    · rw [if_pos h0, hseg 0 (by omega), Py.ok_bind, hG]
      simp only [h0, if_true]
      rfl
    · rw [if_neg h0, hG]
      simp only [h0, if_false]
      rfl
  set T : ℕ → Cmd := txt P with hT
  set texts : List Cmd := if text then (List.range x.length).map T else [] with htexts
  have htext : textCmds x text = (.ok texts : Py (List Cmd)) := by
    unfold textCmds
    cases htx : text with
    | false => rw [htexts, htx]; rfl
    | true =>
      rw [htexts, htx, if_pos rfl, if_pos rfl]
      refine mapM_ok fun t ht => ?_
      obtain ⟨g1, m1⟩ := hPg t (List.mem_range.1 ht)
      have h2 := (hv _ m1).2.2 htx
      unfold textCmd
      rw [listGet_ok g1, Py.ok_bind, coord_ok (by omega), Py.ok_bind, coord_ok (by omega), Py.ok_bind]
      rfl
  obtain ⟨g0, m0⟩ := hPg 0 (List.length_pos_of_ne_nil hne)
  set cmds : List Cmd := ((List.range (x.length - 1)).map G).flatten ++ texts ++
    [.scatter ((P 0).e i) ((P 0).e j), .xlabel (axis "x" (i + 1)), .ylabel (axis "x" (j + 1))] with hcmds
  have hrun : plot_state_space_trajectory x [i, j] text label = .ok cmds := by
    unfold plot_state_space_trajectory
    simp only []
    rw [hsegs, Py.ok_bind, htext, Py.ok_bind, listGet_ok g0, Py.ok_bind, coord_ok (hv _ m0).1, Py.ok_bind, coord_ok (hv _ m0).2.1, Py.ok_bind]
    rfl
  -- the members of the list
  have hmemG : ∀ c, c ∈ ((List.range (x.length - 1)).map G).flatten ↔ ∃ t, t + 1 < x.length ∧ (c = S t none ∨ t = 0 ∧ c = S 0 label) := fun c => by
    simp only [List.mem_flatten, List.mem_map, List.mem_range]
    constructor
    · rintro ⟨l, ⟨t, ht, rfl⟩, hc⟩
      refine ⟨t, by omega, ?_⟩
      by_cases h0 : t = 0
      · rw [hG] at hc
        simp only [h0, if_true, List.mem_cons, List.not_mem_nil, or_false] at hc
        rcases hc with hc | hc
        · exact Or.inr ⟨h0, hc⟩
        · exact Or.inl (by rw [h0]; exact hc)
      · rw [hG] at hc
        simp only [h0, if_false, List.mem_cons, List.not_mem_nil, or_false] at hc
        exact Or.inl hc
    · rintro ⟨t, ht, hc⟩
      refine ⟨G t, ⟨t, by omega, rfl⟩, ?_⟩
      rcases hc with rfl | ⟨rfl, rfl⟩
      · rw [hG]; simp only []; split_ifs <;> simp
      · rw [hG]; simp
  have hmemT : ∀ c, c ∈ texts ↔ text = true ∧ ∃ t < x.length, c = T t := fun c => by
    rw [htexts]
    cases text
    · simp
    · simp only [if_true, List.mem_map, List.mem_range, true_and]
      exact ⟨fun ⟨t, ht, h⟩ => ⟨t, ht, h.symm⟩, fun ⟨t, ht, h⟩ => ⟨t, ht, h.symm⟩⟩
  have hmem : ∀ c, c ∈ cmds ↔ (∃ t, t + 1 < x.length ∧ (c = S t none ∨ t = 0 ∧ c = S 0 label)) ∨ (text = true ∧ ∃ t < x.length, c = T t) ∨
      c = .scatter ((P 0).e i) ((P 0).e j) ∨ c = .xlabel (axis "x" (i + 1)) ∨ c = .ylabel (axis "x" (j + 1)) := fun c => by
    rw [hcmds, List.mem_append, List.mem_append, hmemG, hmemT]
    simp only [List.mem_cons, List.not_mem_nil, or_false, or_assoc]
  exact ⟨P, hPg, cmds, hrun, hmem⟩

end Plot

namespace Props
open Plot

/-- C111 (partial): `plot_state_space_trajectory` raises `ValueError` unless there are two indices.  For a trajectory with at least one point and
indices in range it draws the polygonal line through the points with the selected coordinates, marks the initial one, and names the axes; the label is
given to one segment.  The texts are at the points with the coordinates 0 and 1.

Missing: the texts are at the points that are drawn, which is false for other coordinates (`C111_false`). -/
theorem C111_partial (x : List (Vec ℝ)) (dim : List ℕ) (text : Bool) (label : Option String) :
    (dim.length ≠ 2 → plot_state_space_trajectory x dim text label = .error .valueError) ∧
    ∀ i j, dim = [i, j] →
      (x = [] → plot_state_space_trajectory x dim text label = .error .indexError) ∧
      (x ≠ [] → (∀ v ∈ x, i < v.n ∧ j < v.n ∧ (text = true → 2 ≤ v.n)) → ∃ cmds, plot_state_space_trajectory x dim text label = .ok cmds ∧
        (∀ p, (∃ c ∈ cmds, p ∈ Spec.ink c) ↔ ∃ (t : ℕ) (a b : Vec ℝ), x[t]? = some a ∧ x[t + 1]? = some b ∧ p ∈ segment ℝ (a.e i, a.e j) (b.e i, b.e j)) ∧
        (∀ a b, Cmd.scatter a b ∈ cmds ↔ ∃ v : Vec ℝ, x[0]? = some v ∧ a = v.e i ∧ b = v.e j) ∧
        (∀ s, Cmd.xlabel s ∈ cmds ↔ s = "$x_{" ++ toString (i + 1) ++ "}$") ∧ (∀ s, Cmd.ylabel s ∈ cmds ↔ s = "$x_{" ++ toString (j + 1) ++ "}$") ∧
        (∀ l, label = some l → 2 ≤ x.length → ∃ c ∈ cmds, ∃ xs ys s, c = .plot xs ys s (some l)) ∧
        ∀ a b s, Cmd.text a b s ∈ cmds ↔ text = true ∧ ∃ (t : ℕ) (v : Vec ℝ), x[t]? = some v ∧ a = v.e 0 ∧ b = v.e 1 ∧ s = "$x(" ++ toString t ++ ")$") := by
  refine ⟨fun h => ?_, ?_⟩
  · unfold plot_state_space_trajectory
    match dim, h with
    | [], _ => rfl
    | [_], _ => rfl
    | [_, _], h => exact absurd rfl h
    | _ :: _ :: _ :: _, _ => rfl
  · rintro i j rfl
    refine ⟨?_, fun hne hv => ?_⟩
    · rintro rfl
      cases text <;> rfl
    · obtain ⟨P, hPg, cmds, hrun, hmem⟩ := trajectory_cmds x i j text label hne hv
      obtain ⟨g0, m0⟩ := hPg 0 (List.length_pos_of_ne_nil hne)
      have hinkS : ∀ t l p, p ∈ Spec.ink (seg P i j t l) ↔ p ∈ segment ℝ ((P t).e i, (P t).e j) ((P (t + 1)).e i, (P (t + 1)).e j) := fun t l p => by
        constructor
        · rintro ⟨k, a, b, a', b', h1, h2, h3, h4, hp⟩
          match k with
          | 0 =>
            simp only [List.getElem?_cons_zero, List.getElem?_cons_succ, Option.some.injEq] at h1 h2 h3 h4
            rw [h1, h2, h3, h4]; exact hp
          | k + 1 => simp at h3
        · intro hp
          exact ⟨0, _, _, _, _, rfl, rfl, rfl, rfl, hp⟩
      have hsome : ∀ {t v}, x[t]? = some v → t < x.length ∧ v = P t := fun {t v} h => by
        have ht : t < x.length := by
          by_contra hn
          rw [List.getElem?_eq_none (by omega)] at h
          cases h
        rw [(hPg t ht).1] at h
        exact ⟨ht, (Option.some.inj h).symm⟩
      refine ⟨cmds, hrun, fun p => ?_, fun a b => ?_, fun s => ?_, fun s => ?_, fun l hl hlen => ?_, fun a b s => ?_⟩
      · constructor
        · rintro ⟨c, hc, hp⟩
          rcases (hmem c).1 hc with ⟨t, ht, hc⟩ | ⟨-, t, -, rfl⟩ | rfl | rfl | rfl
          · refine ⟨t, P t, P (t + 1), (hPg t (by omega)).1, (hPg (t + 1) ht).1, ?_⟩
            rcases hc with rfl | ⟨rfl, rfl⟩
            · exact (hinkS _ _ _).1 hp
            · exact (hinkS _ _ _).1 hp
          all_goals exact absurd hp (Set.notMem_empty _)
        · rintro ⟨t, a, b, ha, hb, hp⟩
          obtain ⟨-, rfl⟩ := hsome ha
          obtain ⟨ht, rfl⟩ := hsome hb
          exact ⟨seg P i j t none, (hmem _).2 (Or.inl ⟨t, ht, Or.inl rfl⟩), (hinkS _ _ _).2 hp⟩
      · rw [hmem]
        constructor
        · rintro (⟨t, -, h | ⟨-, h⟩⟩ | ⟨-, t, -, h⟩ | h | h | h)
          · cases h
          · cases h
          · cases h
          · obtain ⟨rfl, rfl⟩ := Cmd.scatter.inj h
            exact ⟨P 0, g0, rfl, rfl⟩
          · cases h
          · cases h
        · rintro ⟨v, h, rfl, rfl⟩
          obtain ⟨-, rfl⟩ := hsome h
          exact Or.inr (Or.inr (Or.inl rfl))
      · rw [hmem]
        constructor
        · rintro (⟨t, -, h | ⟨-, h⟩⟩ | ⟨-, t, -, h⟩ | h | h | h)
          · cases h
          · cases h
          · cases h
          · cases h
          · exact Cmd.xlabel.inj h
          · cases h
        · rintro rfl
          exact Or.inr (Or.inr (Or.inr (Or.inl rfl)))
      · rw [hmem]
        constructor
        · rintro (⟨t, -, h | ⟨-, h⟩⟩ | ⟨-, t, -, h⟩ | h | h | h)
          · cases h
          · cases h
          · cases h
          · cases h
          · cases h
          · exact Cmd.ylabel.inj h
        · rintro rfl
          exact Or.inr (Or.inr (Or.inr (Or.inr rfl)))
      · exact ⟨seg P i j 0 label, (hmem _).2 (Or.inl ⟨0, by omega, Or.inr ⟨rfl, rfl⟩⟩), _, _, _, by rw [hl]; rfl⟩
      · rw [hmem]
        constructor
        · rintro (⟨t, -, h | ⟨-, h⟩⟩ | ⟨htx, t, ht, h⟩ | h | h | h)
          · cases h
          · cases h
          · obtain ⟨rfl, rfl, rfl⟩ := Cmd.text.inj h
            exact ⟨htx, t, P t, (hPg t ht).1, rfl, rfl, rfl⟩
          · cases h
          · cases h
          · cases h
        · rintro ⟨htx, t, v, h, rfl, rfl, rfl⟩
          obtain ⟨ht, rfl⟩ := hsome h
          exact Or.inr (Or.inl ⟨htx, t, ht, rfl⟩)

/-- three points of the plane -/
def path3 : List (Vec ℝ) := [⟨2, fun _ => 0⟩, ⟨2, fun j => if j = 0 then 1 else 0⟩, ⟨2, fun j => if j = 0 then 1 else 2⟩]

theorem path3_size : ∀ v ∈ path3, v.n = 2 := by
  intro v hv
  simp only [path3, List.mem_cons, List.not_mem_nil, or_false] at hv
  rcases hv with rfl | rfl | rfl <;> rfl

example : ∃ cmds, plot_state_space_trajectory path3 = .ok cmds ∧ ∃ c ∈ cmds, ((1 : ℝ), (1 : ℝ)) ∈ Spec.ink c := by
  obtain ⟨cmds, h1, h2, -⟩ := ((C111_partial path3 [0, 1] false none).2 0 1 rfl).2 (by simp [path3])
    (fun v hv => by rw [path3_size v hv]; exact ⟨by norm_num, by norm_num, fun h => by cases h⟩)
  refine ⟨cmds, h1, (h2 _).2 ⟨1, _, _, rfl, rfl, mem_segment.2 ⟨1 / 2, by norm_num, by norm_num, ?_, ?_⟩⟩⟩
  · norm_num
  · norm_num

/-- C111 is false: with `dim=[1, 0]` the text of the last point of `path3` is at `(1, 2)`; the line goes from `(0, 0)` to `(0, 1)` and `(2, 1)`. -/
theorem C111_false : ∃ cmds, plot_state_space_trajectory path3 [1, 0] true = .ok cmds ∧ Cmd.text 1 2 "$x(2)$" ∈ cmds ∧
    ¬ ∃ c ∈ cmds, ((1 : ℝ), (2 : ℝ)) ∈ Spec.ink c := by
  obtain ⟨cmds, h1, h2, -, -, -, -, h3⟩ := ((C111_partial path3 [1, 0] true none).2 1 0 rfl).2 (by simp [path3])
    (fun v hv => by rw [path3_size v hv]; exact ⟨by norm_num, by norm_num, fun _ => le_rfl⟩)
  refine ⟨cmds, h1, (h3 _ _ _).2 ⟨rfl, 2, _, rfl, by simp, by simp, rfl⟩, fun h => ?_⟩
  obtain ⟨t, a, b, ha, hb, hp⟩ := (h2 _).1 h
  obtain ⟨s, s0, s1, e1, e2⟩ := mem_segment.1 hp
  simp only [] at e1 e2
  match t with
  | 0 =>
    simp only [path3, List.getElem?_cons_zero, List.getElem?_cons_succ, Option.some.injEq] at ha hb
    subst ha hb
    norm_num at e1
  | 1 =>
    simp only [path3, List.getElem?_cons_zero, List.getElem?_cons_succ, Option.some.injEq] at ha hb
    subst ha hb
    norm_num at e2
  | t + 2 => simp [path3] at hb

end Props
end Verif
