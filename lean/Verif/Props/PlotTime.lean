import Verif.Props.Plot

/- The plots of inputs, states and outputs over time. -/
namespace Verif
open Finset
namespace Plot

/-- the panels one after the other, with the name of the time axis at the end -/
def panelCmds (n : ℕ) (line : ℕ → Cmd) (bs leg : ℕ → List Cmd) (s : ℕ → String) (T : ℝ) : List Cmd :=
  ((List.range n).map fun i => [.subplot n i, line i] ++ bs i ++ [.ylabel (s i), .xlim 0 T] ++ leg i).flatten ++ [.xlabel "$t$"]

theorem style_some {c : Cmd} {s : String} (h : Spec.style c = some s) : (∀ n i, c ≠ .subplot n i) ∧ (∀ l, c ≠ .ylabel l) ∧ (∀ a b, c ≠ .xlim a b) ∧
    (∀ l, c ≠ .xlabel l) := by
  refine ⟨?_, ?_, ?_, ?_⟩ <;> intros <;> rintro rfl <;> cases h

theorem panelCmds_spec {n : ℕ} {line : ℕ → Cmd} {bs leg : ℕ → List Cmd} (s : ℕ → String) (T : ℝ) (hline : ∀ i, Spec.style (line i) = some "b")
    (hbs : ∀ i, ∀ c ∈ bs i, Spec.style c = some "r") (hleg : ∀ i, ∀ c ∈ leg i, ∃ l, c = .legend l) :
    (∀ m i, Cmd.subplot m i ∈ panelCmds n line bs leg s T ↔ m = n ∧ i < n) ∧
    ∀ k < n, Spec.inkOf "b" (Spec.onPanel k none (panelCmds n line bs leg s T)) = Spec.ink (line k) ∧
      Spec.inkOf "r" (Spec.onPanel k none (panelCmds n line bs leg s T)) = {p | ∃ c ∈ bs k, p ∈ Spec.ink c} ∧
      (∀ l, Cmd.ylabel l ∈ Spec.onPanel k none (panelCmds n line bs leg s T) ↔ l = s k) ∧
      ∀ a b, Cmd.xlim a b ∈ Spec.onPanel k none (panelCmds n line bs leg s T) ↔ a = 0 ∧ b = T := by
  set P : ℕ → List Cmd := fun i => line i :: (bs i ++ [.ylabel (s i), .xlim 0 T] ++ leg i) with hPdef
  have hmemP : ∀ i c, c ∈ P i ↔ c = line i ∨ c ∈ bs i ∨ c = .ylabel (s i) ∨ c = .xlim 0 T ∨ c ∈ leg i := fun i c => by
    rw [hPdef]
    simp only [List.mem_cons, List.mem_append, List.not_mem_nil, or_false, or_assoc]
  have hform : panelCmds n line bs leg s T = ((List.range n).map fun i => .subplot n i :: P i).flatten ++ [.xlabel "$t$"] := by
    unfold panelCmds
    simp only [hPdef, List.cons_append, List.nil_append]
  have hflat : ∀ i, Flat (P i) := fun i c hc m k => by
    rcases (hmemP i c).1 hc with rfl | h | rfl | rfl | h
    · exact (style_some (hline i)).1 m k
    · exact (style_some (hbs i c h)).1 m k
    · intro h; cases h
    · intro h; cases h
    · obtain ⟨l, rfl⟩ := hleg i c h
      intro h; cases h
  have ht : Flat [Cmd.xlabel "$t$"] := fun c hc m k h => by
    rw [List.mem_singleton] at hc
    rw [hc] at h; cases h
  have hon : ∀ k < n, ∀ c, c ≠ .xlabel "$t$" → (c ∈ Spec.onPanel k none (panelCmds n line bs leg s T) ↔ c ∈ P k) := fun k hk c hc => by
    rw [hform, mem_onPanel hflat ht (by rwa [List.mem_singleton])]
    exact ⟨fun h => h.2, fun h => ⟨List.mem_range.2 hk, h⟩⟩
  have hink : ∀ k < n, ∀ st p, p ∈ Spec.inkOf st (Spec.onPanel k none (panelCmds n line bs leg s T)) ↔ ∃ c ∈ P k, Spec.style c = some st ∧ p ∈ Spec.ink c := by
    intro k hk st p
    constructor
    · rintro ⟨c, hc, h1, h2⟩
      exact ⟨c, (hon k hk c ((style_some h1).2.2.2 _)).1 hc, h1, h2⟩
    · rintro ⟨c, hc, h1, h2⟩
      exact ⟨c, (hon k hk c ((style_some h1).2.2.2 _)).2 hc, h1, h2⟩
  refine ⟨fun m i => ?_, fun k hk => ⟨?_, ?_, fun l => ?_, fun a b => ?_⟩⟩
  · rw [hform, List.mem_append, List.mem_flatten]
    constructor
    · rintro (⟨l, hl, hc⟩ | h)
      · obtain ⟨i', hi', rfl⟩ := List.mem_map.1 hl
        rcases List.mem_cons.1 hc with h | h
        · obtain ⟨rfl, rfl⟩ := Cmd.subplot.inj h
          exact ⟨rfl, List.mem_range.1 hi'⟩
        · exact absurd rfl (hflat i' _ h m i)
      · rw [List.mem_singleton] at h; cases h
    · rintro ⟨rfl, hi⟩
      exact Or.inl ⟨_, List.mem_map.2 ⟨i, List.mem_range.2 hi, rfl⟩, by simp⟩
  · ext p
    rw [hink k hk]
    constructor
    · rintro ⟨c, hc, h1, h2⟩
      rcases (hmemP k c).1 hc with rfl | h | rfl | rfl | h
      · exact h2
      · rw [hbs k c h] at h1; exact absurd (Option.some.inj h1) (by decide)
      · cases h1
      · cases h1
      · obtain ⟨l, rfl⟩ := hleg k c h
        cases h1
    · intro h
      exact ⟨line k, (hmemP k _).2 (Or.inl rfl), hline k, h⟩
  · ext p
    rw [hink k hk]
    constructor
    · rintro ⟨c, hc, h1, h2⟩
      rcases (hmemP k c).1 hc with rfl | h | rfl | rfl | h
      · rw [hline k] at h1; exact absurd (Option.some.inj h1) (by decide)
      · exact ⟨c, h, h2⟩
      · cases h1
      · cases h1
      · obtain ⟨l, rfl⟩ := hleg k c h
        cases h1
    · rintro ⟨c, hc, h⟩
      exact ⟨c, (hmemP k _).2 (Or.inr (Or.inl hc)), hbs k c hc, h⟩
  · rw [hon k hk _ (by intro h; cases h), hmemP]
    constructor
    · rintro (h | h | h | h | h)
      · exact absurd h.symm ((style_some (hline k)).2.1 l)
      · exact absurd rfl ((style_some (hbs k _ h)).2.1 l)
      · exact Cmd.ylabel.inj h
      · cases h
      · obtain ⟨l, h⟩ := hleg k _ h
        cases h
    · rintro rfl
      exact Or.inr (Or.inr (Or.inl rfl))
  · rw [hon k hk _ (by intro h; cases h), hmemP]
    constructor
    · rintro (h | h | h | h | h)
      · exact absurd h.symm ((style_some (hline k)).2.2.1 a b)
      · exact absurd rfl ((style_some (hbs k _ h)).2.2.1 a b)
      · cases h
      · exact Cmd.xlim.inj h
      · obtain ⟨l, h⟩ := hleg k _ h
        cases h
    · rintro ⟨rfl, rfl⟩
      exact Or.inr (Or.inr (Or.inr (Or.inl rfl)))

/-- the legend of the panel -/
def leg (i : ℕ) (bounds : Option (List (Vec ℝ))) (s s' : String) : List Cmd :=
  if i = 0 then [.legend (if bounds = none then [s] else [s, s'])] else []

theorem legendCmds_eq (i : ℕ) {bounds : Option (List (Vec ℝ))} (h : bounds ≠ some []) (s s' : String) :
    legendCmds i bounds s s' = .ok (leg i bounds s s') := by
  unfold legendCmds leg
  by_cases hi : i = 0
  · rw [if_pos hi, if_pos hi]
    match bounds, h with
    | none, _ => rfl
    | some (_ :: _), _ => rfl
  · rw [if_neg hi, if_neg hi]

theorem leg_legend (i : ℕ) (bounds : Option (List (Vec ℝ))) (s s' : String) : ∀ c ∈ leg i bounds s s', ∃ l, c = .legend l := by
  intro c hc
  unfold leg at hc
  split_ifs at hc
  · exact ⟨_, List.mem_singleton.1 hc⟩
  · exact ⟨_, List.mem_singleton.1 hc⟩
  · cases hc

/-- the lines of the bounds of the panel -/
noncomputable def bcmds (t : List ℝ) (bounds : Option (List (Vec ℝ))) (i : ℕ) : List Cmd :=
  (bounds.getD []).map fun b => .step t (List.replicate t.length (b.e i)) "r"

theorem bcmds_red (t : List ℝ) (bounds : Option (List (Vec ℝ))) (i : ℕ) : ∀ c ∈ bcmds t bounds i, Spec.style c = some "r" := by
  intro c hc
  obtain ⟨b, -, rfl⟩ := List.mem_map.1 hc
  rfl

theorem bcmds_ink {N : ℕ} {h : ℝ} (hh : 0 < h) (hN : 0 < N) (bounds : Option (List (Vec ℝ))) (i : ℕ) :
    {p | ∃ c ∈ bcmds (linspace 0 (N * h) (N + 1)) bounds i, p ∈ Spec.ink c} =
      {p | (0 ≤ p.1 ∧ p.1 ≤ N * h) ∧ ∃ b ∈ bounds.getD [], p.2 = b.e i} := by
  ext p
  constructor
  · rintro ⟨c, hc, hp⟩
    obtain ⟨b, hb, rfl⟩ := List.mem_map.1 hc
    obtain ⟨h1, h2⟩ := (ink_const hh hN _ _ p).1 hp
    exact ⟨h1, b, hb, h2⟩
  · rintro ⟨h1, b, hb, h2⟩
    exact ⟨_, List.mem_map.2 ⟨b, hb, rfl⟩, (ink_const hh hN _ _ p).2 ⟨h1, h2⟩⟩

end Plot

namespace Props
open Plot

/-- C112 (partial): `plot_input_sequence` of at least one input, with a positive time step and bounds that are not an empty list, has one panel for
each component.  There the blue line is at the value of the input `k` during the whole step `k`, the red lines are at the bounds over the whole
horizon, the limits of the time axis are 0 and the end of the horizon, and the axis is named after the component.

Missing: with an empty list of bounds no bound is drawn, as without bounds, which is false (`C112_false`). -/
theorem C112_partial (u : List (Vec ℝ)) (h : ℝ) (hh : 0 < h) (bounds : Option (List (Vec ℝ))) (hb : bounds ≠ some []) (nu : ℕ) (hu : u ≠ [])
    (hn : ∀ v ∈ u, v.n = nu) (hbn : ∀ b ∈ bounds.getD [], b.n = nu) :
    ∃ cmds, plot_input_sequence u h bounds = .ok cmds ∧ (∀ m i, Cmd.subplot m i ∈ cmds ↔ m = nu ∧ i < nu) ∧
      ∀ i < nu,
        (∀ (k : ℕ) (w : Vec ℝ), u[k]? = some w → ∀ τ : ℝ, k * h < τ → τ < (k + 1) * h → ∀ v,
          (τ, v) ∈ Spec.inkOf "b" (Spec.onPanel i none cmds) ↔ v = w.e i) ∧
        Spec.inkOf "r" (Spec.onPanel i none cmds) = {p | (0 ≤ p.1 ∧ p.1 ≤ u.length * h) ∧ ∃ b ∈ bounds.getD [], p.2 = b.e i} ∧
        (∀ l, Cmd.ylabel l ∈ Spec.onPanel i none cmds ↔ l = "$u_{" ++ toString (i + 1) ++ "}$") ∧
        ∀ a b, Cmd.xlim a b ∈ Spec.onPanel i none cmds ↔ a = 0 ∧ b = u.length * h := by
  obtain ⟨u0, us, rfl⟩ := List.exists_cons_of_ne_nil hu
  set u := u0 :: us with hudef
  have hu0 : u0.n = nu := hn u0 (by simp [hudef])
  have hN : 0 < u.length := by simp [hudef]
  set t : List ℝ := linspace 0 (u.length * h) (u.length + 1) with ht
  set line : ℕ → Cmd := fun i => .step t (u0.e i :: u.map fun v => v.e i) "b" with hline
  have hpanel : ∀ i ∈ List.range u0.n, inputPanel u h bounds u0.n i =
      .ok ([.subplot nu i, line i] ++ bcmds t bounds i ++ [.ylabel (axis "u" (i + 1)), .xlim 0 (u.length * h)] ++
        leg i bounds "Optimal control" "Control bounds") := fun i hi => by
    have hi : i < nu := by rw [← hu0]; exact List.mem_range.1 hi
    have k1 : (u.mapM fun v => coord v i) = .ok (u.map fun v => v.e i) := mapM_ok fun v hv => coord_ok (by rw [hn v hv]; exact hi)
    have k2 : np.listGet (u.map fun v => v.e i) 0 = .ok (u0.e i) := listGet_ok rfl
    have k3 : stepCmd t (u0.e i :: u.map fun v => v.e i) "b" = .ok (line i) := if_pos (by rw [ht, linspace_length]; simp)
    have k4 : boundCmds t i bounds = .ok (bcmds t bounds i) := boundCmds_ok fun b hb' => by rw [hbn b hb']; exact hi
    unfold inputPanel
    simp only []
    rw [k1, Py.ok_bind, k2, Py.ok_bind, k3, Py.ok_bind, k4, Py.ok_bind, legendCmds_eq i hb, Py.ok_bind, hu0]
    rfl
  refine ⟨panelCmds nu line (bcmds t bounds) (fun i => leg i bounds "Optimal control" "Control bounds") (fun i => axis "u" (i + 1)) (u.length * h), ?_, ?_⟩
  · unfold plot_input_sequence
    rw [show np.listGet u 0 = .ok u0 from listGet_ok rfl, Py.ok_bind, mapM_ok hpanel, Py.ok_bind, hu0]
    rfl
  · obtain ⟨s1, s2⟩ := panelCmds_spec (n := nu) (line := line) (bs := bcmds t bounds) (leg := fun i => leg i bounds "Optimal control" "Control bounds")
      (fun i => axis "u" (i + 1)) (u.length * h) (fun _ => rfl) (fun i => bcmds_red t bounds i) (fun i => leg_legend i bounds _ _)
    refine ⟨s1, fun i hi => ?_⟩
    obtain ⟨e1, e2, e3, e4⟩ := s2 i hi
    refine ⟨fun k w hw τ h0 h1 v => ?_, ?_, e3, e4⟩
    · rw [e1]
      refine ink_step hh (by simp) "b" ?_ h0 h1 v
      rw [List.getElem?_cons_succ, List.getElem?_map, hw]
      rfl
    · rw [e2, bcmds_ink hh hN]

/-- two inputs with two components, and bounds -/
def inputs2 : List (Vec ℝ) := [⟨2, fun j => j⟩, ⟨2, fun j => 1 - j⟩]

example : ∃ cmds, plot_input_sequence inputs2 (1 / 2) (some [⟨2, fun _ => 3⟩]) = .ok cmds ∧
    (3 / 4, 1) ∈ Spec.inkOf "b" (Spec.onPanel 0 none cmds) ∧ (3 / 4, 0) ∉ Spec.inkOf "b" (Spec.onPanel 0 none cmds) ∧
    (1, 3) ∈ Spec.inkOf "r" (Spec.onPanel 1 none cmds) := by
  obtain ⟨cmds, h1, -, h2⟩ := C112_partial inputs2 (1 / 2) (by norm_num) (some [⟨2, fun _ => 3⟩]) (by simp) 2 (by simp [inputs2])
    (by simp [inputs2]) (by simp)
  refine ⟨cmds, h1, ?_, fun h => ?_, ?_⟩
  · refine ((h2 0 (by norm_num)).1 1 _ rfl (3 / 4) (by norm_num) (by norm_num) 1).2 ?_
    norm_num
  · have := ((h2 0 (by norm_num)).1 1 _ rfl (3 / 4) (by norm_num) (by norm_num) 0).1 h
    norm_num at this
  · rw [(h2 1 (by norm_num)).2.1]
    refine ⟨⟨by norm_num, ?_⟩, ⟨2, fun _ => 3⟩, by simp, rfl⟩
    norm_num [inputs2]

/-- C112 is false: with an empty list of bounds `bound_plot` is not defined. -/
theorem C112_false (u0 : Vec ℝ) (h0 : 0 < u0.n) (h : ℝ) : plot_input_sequence [u0] h (some []) = .error .nameError := by
  have k1 : ([u0].mapM fun v => coord v 0) = .ok [u0.e 0] := mapM_ok (g := fun v : Vec ℝ => v.e 0) fun v hv => by
    rw [List.mem_singleton.1 hv]; exact coord_ok h0
  have hp : inputPanel [u0] h (some []) u0.n 0 = .error .nameError := by
    unfold inputPanel
    simp only []
    rw [k1, Py.ok_bind, show np.listGet [u0.e 0] 0 = .ok (u0.e 0) from rfl, Py.ok_bind]
    rw [show stepCmd (linspace 0 (([u0].length : ℝ) * h) ([u0].length + 1)) [u0.e 0, u0.e 0] "b" = .ok _ from if_pos (by rw [linspace_length]; rfl), Py.ok_bind]
    rfl
  obtain ⟨n, hn⟩ : ∃ n, u0.n = n + 1 := ⟨u0.n - 1, by omega⟩
  unfold plot_input_sequence
  rw [show np.listGet [u0] 0 = .ok u0 from rfl, Py.ok_bind]
  rw [hn] at hp ⊢
  rw [List.range_succ_eq_map, List.mapM_cons, hp]
  rfl

/-- the plots of states and of outputs over time -/
theorem statePanels_spec (x : List (Vec ℝ)) (h : ℝ) (hh : 0 < h) (bounds : Option (List (Vec ℝ))) (hb : bounds ≠ some []) (name s' : String) (nx : ℕ)
    (hx : 2 ≤ x.length) (hn : ∀ v ∈ x, v.n = nx) (hbn : ∀ b ∈ bounds.getD [], b.n = nx) :
    ∃ panels, (List.range nx).mapM (statePanel x h bounds name s' nx) = .ok panels ∧
      (∀ m i, Cmd.subplot m i ∈ panels.flatten ++ [.xlabel "$t$"] ↔ m = nx ∧ i < nx) ∧
      ∀ i < nx,
        (∀ (k : ℕ) (a b : Vec ℝ), x[k]? = some a → x[k + 1]? = some b → ∀ σ : ℝ, 0 ≤ σ → σ ≤ 1 → ∀ v,
          ((k + σ) * h, v) ∈ Spec.inkOf "b" (Spec.onPanel i none (panels.flatten ++ [.xlabel "$t$"])) ↔ v = (1 - σ) * a.e i + σ * b.e i) ∧
        Spec.inkOf "r" (Spec.onPanel i none (panels.flatten ++ [.xlabel "$t$"])) =
          {p | (0 ≤ p.1 ∧ p.1 ≤ (x.length - 1 : ℕ) * h) ∧ ∃ b ∈ bounds.getD [], p.2 = b.e i} ∧
        (∀ l, Cmd.ylabel l ∈ Spec.onPanel i none (panels.flatten ++ [.xlabel "$t$"]) ↔ l = axis name (i + 1)) ∧
        ∀ a b, Cmd.xlim a b ∈ Spec.onPanel i none (panels.flatten ++ [.xlabel "$t$"]) ↔ a = 0 ∧ b = (x.length - 1 : ℕ) * h := by
  obtain ⟨N, hN⟩ : ∃ N, x.length = N + 1 := ⟨x.length - 1, by omega⟩
  have hN0 : 0 < N := by omega
  have hT : ((x.length : ℝ) - 1) * h = N * h := by rw [hN]; push_cast; ring
  set t : List ℝ := linspace 0 (N * h) (N + 1) with ht
  set line : ℕ → Cmd := fun i => .plot t (x.map fun v => v.e i) "b" none with hline
  have hpanel : ∀ i ∈ List.range nx, statePanel x h bounds name s' nx i =
      .ok ([.subplot nx i, line i] ++ bcmds t bounds i ++ [.ylabel (axis name (i + 1)), .xlim 0 (N * h)] ++ leg i bounds "Optimal trajectory" s') := by
    intro i hi
    have hi : i < nx := List.mem_range.1 hi
    have k1 : (x.mapM fun v => coord v i) = .ok (x.map fun v => v.e i) := mapM_ok fun v hv => coord_ok (by rw [hn v hv]; exact hi)
    have k3 : plotCmd t (x.map fun v => v.e i) "b" = .ok (line i) := if_pos (by rw [ht, linspace_length]; simp [hN])
    have k4 : boundCmds t i bounds = .ok (bcmds t bounds i) := boundCmds_ok fun b hb' => by rw [hbn b hb']; exact hi
    unfold statePanel
    simp only []
    rw [hT, hN, k1, Py.ok_bind, k3, Py.ok_bind, k4, Py.ok_bind, legendCmds_eq i hb, Py.ok_bind]
    rfl
  refine ⟨_, mapM_ok hpanel, ?_⟩
  obtain ⟨s1, s2⟩ := panelCmds_spec (n := nx) (line := line) (bs := bcmds t bounds) (leg := fun i => leg i bounds "Optimal trajectory" s')
    (fun i => axis name (i + 1)) (N * h) (fun _ => rfl) (fun i => bcmds_red t bounds i) (fun i => leg_legend i bounds _ _)
  refine ⟨s1, fun i hi => ?_⟩
  obtain ⟨e1, e2, e3, e4⟩ := s2 i hi
  rw [show x.length - 1 = N by omega]
  refine ⟨fun k a b ha hb' σ h0 h1 v => ?_, ?_, e3, e4⟩
  · refine Iff.trans (show _ ↔ ((k + σ) * h, v) ∈ Spec.ink (line i) from by rw [← e1]; rfl) ?_
    refine ink_line hh (by simp [hN]) "b" none ?_ ?_ h0 h1 v
    · rw [List.getElem?_map, ha]; rfl
    · rw [List.getElem?_map, hb']; rfl
  · exact e2.trans (bcmds_ink hh hN0 _ _)

/-- C113: `plot_state_trajectory` and `plot_output_trajectory` of at least two states, with a positive time step and bounds that are not an empty list,
have one panel for each component of the state or of `C x`.  There the blue line interpolates the values at the instants `k h`, the red lines are at
the bounds over the whole horizon, and the limits and the name of the axes are those of the horizon and of the component. -/
theorem C113 (x : List (Vec ℝ)) (h : ℝ) (hh : 0 < h) (bounds : Option (List (Vec ℝ))) (hb : bounds ≠ some []) (nx : ℕ) (hx : 2 ≤ x.length)
    (hn : ∀ v ∈ x, v.n = nx) :
    ((∀ b ∈ bounds.getD [], b.n = nx) → ∃ cmds, plot_state_trajectory x h bounds = .ok cmds ∧ (∀ m i, Cmd.subplot m i ∈ cmds ↔ m = nx ∧ i < nx) ∧
      ∀ i < nx,
        (∀ (k : ℕ) (a b : Vec ℝ), x[k]? = some a → x[k + 1]? = some b → ∀ σ : ℝ, 0 ≤ σ → σ ≤ 1 → ∀ v,
          ((k + σ) * h, v) ∈ Spec.inkOf "b" (Spec.onPanel i none cmds) ↔ v = (1 - σ) * a.e i + σ * b.e i) ∧
        Spec.inkOf "r" (Spec.onPanel i none cmds) = {p | (0 ≤ p.1 ∧ p.1 ≤ (x.length - 1 : ℕ) * h) ∧ ∃ b ∈ bounds.getD [], p.2 = b.e i} ∧
        (∀ l, Cmd.ylabel l ∈ Spec.onPanel i none cmds ↔ l = "$x_{" ++ toString (i + 1) ++ "}$") ∧
        ∀ a b, Cmd.xlim a b ∈ Spec.onPanel i none cmds ↔ a = 0 ∧ b = (x.length - 1 : ℕ) * h) ∧
    ∀ C : Mat ℝ, C.nc = nx → (∀ b ∈ bounds.getD [], b.n = C.nr) → ∃ cmds, plot_output_trajectory C x h bounds = .ok cmds ∧
      (∀ m i, Cmd.subplot m i ∈ cmds ↔ m = C.nr ∧ i < C.nr) ∧
      ∀ i < C.nr,
        (∀ (k : ℕ) (a b : Vec ℝ), x[k]? = some a → x[k + 1]? = some b → ∀ σ : ℝ, 0 ≤ σ → σ ≤ 1 → ∀ v,
          ((k + σ) * h, v) ∈ Spec.inkOf "b" (Spec.onPanel i none cmds) ↔
            v = (1 - σ) * ∑ j ∈ range nx, C.e i j * a.e j + σ * ∑ j ∈ range nx, C.e i j * b.e j) ∧
        Spec.inkOf "r" (Spec.onPanel i none cmds) = {p | (0 ≤ p.1 ∧ p.1 ≤ (x.length - 1 : ℕ) * h) ∧ ∃ b ∈ bounds.getD [], p.2 = b.e i} ∧
        (∀ l, Cmd.ylabel l ∈ Spec.onPanel i none cmds ↔ l = "$y_{" ++ toString (i + 1) ++ "}$") ∧
        ∀ a b, Cmd.xlim a b ∈ Spec.onPanel i none cmds ↔ a = 0 ∧ b = (x.length - 1 : ℕ) * h := by
  refine ⟨fun hbn => ?_, fun C hC hbn => ?_⟩
  · obtain ⟨panels, h1, h2, h3⟩ := statePanels_spec x h hh bounds hb "x" "State bounds" nx hx hn hbn
    obtain ⟨x0, xs, rfl⟩ := List.exists_cons_of_ne_nil (show x ≠ [] by rintro rfl; simp at hx)
    refine ⟨_, ?_, h2, h3⟩
    unfold plot_state_trajectory
    rw [show np.listGet (x0 :: xs) 0 = .ok x0 from rfl, Py.ok_bind, hn x0 (by simp), h1, Py.ok_bind]
    rfl
  · have hy : (x.mapM fun v => np.dotMV C v) = .ok (x.map fun v => C.mulVec v) := mapM_ok fun v hv => if_pos (by rw [hn v hv, hC])
    obtain ⟨panels, h1, h2, h3⟩ := statePanels_spec (x.map fun v => C.mulVec v) h hh bounds hb "y" "Output bounds" C.nr (by simpa using hx)
      (by intro v hv; obtain ⟨w, -, rfl⟩ := List.mem_map.1 hv; rfl) hbn
    rw [List.length_map] at h3
    refine ⟨_, ?_, h2, fun i hi => ?_⟩
    · unfold plot_output_trajectory
      rw [hy, Py.ok_bind, h1, Py.ok_bind]
      rfl
    · obtain ⟨g1, g2⟩ := h3 i hi
      refine ⟨fun k a b ha hb' σ h0 h1 v => ?_, g2⟩
      rw [g1 k (C.mulVec a) (C.mulVec b) (by rw [List.getElem?_map, ha]; rfl) (by rw [List.getElem?_map, hb']; rfl) σ h0 h1 v]
      subst hC
      exact Iff.rfl

example : ∃ cmds, plot_output_trajectory ⟨1, 2, fun _ _ => 1⟩ path3 2 = .ok cmds ∧ (3, 2) ∈ Spec.inkOf "b" (Spec.onPanel 0 none cmds) := by
  obtain ⟨cmds, h1, -, h2⟩ := (C113 path3 2 (by norm_num) none (by simp) 2 (by simp [path3]) path3_size).2 ⟨1, 2, fun _ _ => 1⟩ rfl (by simp)
  refine ⟨cmds, h1, ?_⟩
  have := ((h2 0 (by norm_num)).1 1 _ _ rfl rfl (1 / 2) (by norm_num) (by norm_num) 2).2 (by simp [sum_range_succ]; norm_num)
  norm_num at this
  exact this

end Props
end Verif
