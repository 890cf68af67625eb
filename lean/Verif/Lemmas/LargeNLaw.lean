import Verif.Props.MergeLaw
import Verif.Spec.LargeNLaw
import Verif.Props.FreshEnsembles
import Verif.Props.Time
/-
A merging search whose clock ends; renewing the searchers; ensembles.
-/
namespace Moledyn
open LList MeasureTheory ProbabilityTheory Filter
open scoped ENNReal
set_option linter.unusedSectionVars false
variable {G : Type} [MeasurableSpace G]

/-! ### the clock ends -/

theorem length_le_sum : ∀ l : List ℕ, (∀ a ∈ l, 1 ≤ a) → l.length ≤ l.sum
  | [], _ => le_rfl
  | a :: l, h => by
    have := length_le_sum l fun b hb => h b (List.mem_cons_of_mem _ hb)
    have := h a List.mem_cons_self
    simp only [List.length_cons, List.sum_cons]
    omega

theorem CtlOk.todo_le {n : ℕ} {c : MergeCtl n} (h : CtlOk c) : c.todo.length ≤ n := by
  have h1 : ∀ a ∈ (c.done ++ c.todo).map (fun a : Fin n × ℕ => a.2), 1 ≤ a := by
    intro a ha
    obtain ⟨b, hb, rfl⟩ := List.mem_map.1 ha
    exact h.size b hb
  have h2 := length_le_sum _ h1
  rw [List.length_map, List.length_append] at h2
  have := h.total
  omega

/-- what a search that is on knows about its clock. -/
structure TurnOn {n : ℕ} (clk : ℕ → Option ℝ) (c : MergeCtl n) : Prop where
  ok : CtlOk c
  todo : c.todo ≠ []
  on : c.over = none
  clock : (clk c.turns).isSome

/-- one step: either the search is on, with less to do until turn `K`, or it is over. -/
theorem move_count {n d : ℕ} (hn : 0 < n) (W : MergeWorld d) {x : MergeState n d} (h : TurnOn W.clk x.1) (z : Fin d → ℝ) :
    (TurnOn W.clk (mergeMove W x z).1 ∧ ((mergeMove W x z).1.turns = x.1.turns ∧ (mergeMove W x z).1.todo.length < x.1.todo.length ∨
      (mergeMove W x z).1.turns = x.1.turns + 1)) ∨
    (mergeMove W x z ∉ searchesOn n d ∧ (mergeOutcome (mergeMove W x z)).1 = x.1.turns + 1 ∧
      ((mergeOutcome (mergeMove W x z)).2 = .clock → W.clk (x.1.turns + 1) = none)) := by
  obtain ⟨a1, a2⟩ := move_ok hn W x z h.ok h.todo
  rcases x with ⟨⟨turns, dn, _ | ⟨⟨i, m⟩, rest⟩, over⟩, y⟩
  · exact absurd rfl h.todo
  · have hon : over = none := h.on
    subst hon
    by_cases h1 : movedTo W turns y i m z ∈ W.room
    · by_cases h2 : movedTo W turns y i m z ∈ W.target
      · rw [move_found W h1 h2]
        exact .inr ⟨by simp [searchesOn], by simp [mergeOutcome], by simp [mergeOutcome]⟩
      · by_cases h3 : rest = []
        · subst h3
          rw [move_last W h1 h2] at a1 a2 ⊢
          cases hc : W.clk (turns + 1) with
          | none =>
            exact .inr ⟨by simp [searchesOn], by simp [mergeOutcome], fun _ => rfl⟩
          | some dt =>
            rw [hc] at a1
            exact .inl ⟨⟨by simpa using a1, a2, by simp, by simp [hc]⟩, .inr rfl⟩
        · rw [move_next W h1 h2 h3] at a1 a2 ⊢
          exact .inl ⟨⟨a1, a2, rfl, h.clock⟩, .inl ⟨rfl, by simp⟩⟩
    · rw [move_tooFar W h1]
      exact .inr ⟨by simp [searchesOn], by simp [mergeOutcome], by simp [mergeOutcome]⟩

/-- a search with a clock that ends, ends. -/
theorem clock_ends {n d : ℕ} (hn : 0 < n) (W : MergeWorld d) {q : G → (Fin d → ℝ) × G} {K : ℕ} (hK : W.clk K = none) :
    ∀ (M : ℕ) (x : MergeState n d) (g : G), TurnOn W.clk x.1 → x.1.turns < K → (K - x.1.turns) * (n + 1) + x.1.todo.length ≤ M →
      ∃ N, ((drawStep (mergeMove W) q)^[N + 1] (x, g)).1 ∉ searchesOn n d := by
  intro M
  induction M with
  | zero =>
    intro x g h hK hM
    have := List.length_pos_of_ne_nil h.todo
    omega
  | succ M ih =>
    intro x g h hlt hM
    rcases move_count hn W h (q g).1 with ⟨a1, a2⟩ | ⟨a1, -⟩
    · obtain ⟨N, hN⟩ := ih (mergeMove W x (q g).1) (q g).2 a1 (by
        rcases a2 with ⟨a2, -⟩ | a2
        · rw [a2]; exact hlt
        · rw [a2]
          refine lt_of_le_of_ne (by omega) fun e => ?_
          have := a1.clock
          rw [a2, e, hK] at this
          simp at this) (by
        rcases a2 with ⟨a2, a3⟩ | a2
        · rw [a2]; omega
        · rw [a2]
          have h1 := a1.ok.todo_le
          have h2 : (K - x.1.turns) * (n + 1) = (K - (x.1.turns + 1)) * (n + 1) + (n + 1) := by
            rw [← Nat.succ_mul]; congr 1; omega
          have := List.length_pos_of_ne_nil h.todo
          omega)
      exact ⟨N + 1, by rw [Function.iterate_succ_apply]; exact hN⟩
    · exact ⟨0, a1⟩

/-- at its end, a search knows its clock. -/
theorem end_clock {n d : ℕ} (hn : 0 < n) (W : MergeWorld d) {q : G → (Fin d → ℝ) × G} (y : MergeState n d × G) (h : TurnOn W.clk y.1.1) (N : ℕ)
    (h1 : ∀ m < N, ((drawStep (mergeMove W) q)^[m + 1] y).1 ∈ searchesOn n d) (h2 : ((drawStep (mergeMove W) q)^[N + 1] y).1 ∉ searchesOn n d) :
    ∃ T, (mergeOutcome ((drawStep (mergeMove W) q)^[N + 1] y).1).1 = T + 1 ∧ (W.clk T).isSome ∧
      ((mergeOutcome ((drawStep (mergeMove W) q)^[N + 1] y).1).2 = .clock → W.clk (T + 1) = none) := by
  have hon : ∀ m ≤ N, TurnOn W.clk ((drawStep (mergeMove W) q)^[m] y).1.1 := by
    intro m
    induction m with
    | zero => exact fun _ => h
    | succ m ih =>
      intro hm
      have h3 := h1 m (by omega)
      rw [Function.iterate_succ_apply'] at h3 ⊢
      rcases move_count hn W (ih (by omega)) (q ((drawStep (mergeMove W) q)^[m] y).2).1 with ⟨a1, -⟩ | ⟨a1, -⟩
      · exact a1
      · exact absurd h3 a1
  rw [Function.iterate_succ_apply'] at h2 ⊢
  rcases move_count hn W (hon N le_rfl) (q ((drawStep (mergeMove W) q)^[N] y).2).1 with ⟨a1, -⟩ | ⟨a1, a2, a3⟩
  · exact absurd a1.on h2
  · exact ⟨_, a2, (hon N le_rfl).clock, a3⟩

theorem start_on {n d : ℕ} (hn : 0 < n) {clk : ℕ → Option ℝ} (h : (clk 0).isSome) (y : Fin n → Fin d → ℝ) : TurnOn clk (mergeStart y).1 := by
  refine ⟨start_ok y, fun hh => ?_, rfl, h⟩
  have := congrArg List.length hh
  simp [mergeStart] at this
  omega

/-! ### renewing -/

theorem start_dim' {P : Measure G} {sys : SysOps G ℝ} {d : Nat} {S : Set (Fin d → ℝ)} (room : Room P sys d S)
    (v : Pos ℝ) : (AgentCore.startPos sys v).1.length = d := by
  have h := room.outToVec v
  unfold AgentCore.startPos
  split
  · rename_i p e; rw [e] at h; exact h rfl
  · exact room.outDim

theorem renew_team {P : Measure G} [IsProbabilityMeasure P] {sys : SysOps G ℝ} {d : Nat} {S₀ : Set (Fin d → ℝ)} (room : Room P sys d S₀)
    (t : BulkTarget ℝ) {f0 : G → (Fin d → ℝ) × G} {μ : Measure (Fin d → ℝ)} [IsProbabilityMeasure μ] (hf0 : MeasurePreserving f0 P (μ.prod P))
    (hae0 : ∀ᵐ g ∂P, ∃ n, ∀ inner ≥ n, ∀ fuel ≥ n, ∀ vec : Pos ℝ, vec.length = d →
        AgentCore.drawOffTarget sys t.ops inner fuel g vec = some ((List.ofFn (f0 g).1, .ok ()), (f0 g).2)) (radius alpha : ℝ) :
    ∀ n, ∀ᵐ g ∂P, ∃ N, ∀ loops ≥ N, ∀ v : List (MergeAgent ℝ), MergeTeam d radius alpha v → v.length = n →
      renewEach (fun a g => a.renewUniform sys t.ops loops loops g) v g =
        some ((List.ofFn fun i : Fin n => crew 1 alpha radius 1 ((drawsN f0 n g).1 i), .ok ()), (drawsN f0 n g).2) := by
  intro n
  induction n with
  | zero =>
    refine .of_forall fun g => ⟨0, fun _ _ v _ hn => ?_⟩
    obtain rfl : v = [] := List.length_eq_zero_iff.1 hn
    rfl
  | succ n ih =>
    have h2 := (measurePreserving_snd.comp hf0).quasiMeasurePreserving.ae ih
    filter_upwards [hae0, h2] with g ⟨N, hN⟩ ⟨M, hM⟩
    refine ⟨max N M, fun loops hl v hv hn => ?_⟩
    obtain _ | ⟨a, v⟩ := v
    · simp at hn
    have e3 := hM loops (le_trans (le_max_right _ _) hl) v (fun b hb => hv b (List.mem_cons_of_mem _ hb)) (by simpa using hn)
    obtain ⟨D, x, m, rfl⟩ := hv a List.mem_cons_self
    have e0 := start_dim' room (List.ofFn x)
    have e1 := hN loops (le_trans (le_max_left _ _) hl) loops (le_trans (le_max_left _ _) hl) _ e0
    have e2 : (⟨.continuousPassiveInteracting, .brownian D, .uniform, d, List.ofFn x, radius, m, alpha⟩ : MergeAgent ℝ).renewUniform sys t.ops loops loops g =
        some ((crew 1 alpha radius 1 (f0 g).1, .ok ()), (f0 g).2) := by
      simp only [MergeAgent.renewUniform, e1, Option.map_some, MergeAgent.rescale, crew, slowedTo, Pos.dim, e0, ite_self, fl_ofNat, fl_powf,
        Nat.cast_one, Real.one_rpow]
    rw [renewEach, e2]
    simp only
    simp only [Function.comp] at e3
    rw [e3]
    simp only [Option.map_some, drawsN, List.ofFn_succ, Fin.cons_zero, Fin.cons_succ]

/-! ### ensembles -/

theorem oneByOne_snoc {S F : Type} {run : S → Option (Res F × S)} {s s1 s2 : S} {ts : List F} {t : F} (h : OneByOne run s ts s1)
    (h2 : run s1 = some (.ok t, s2)) : OneByOne run s (ts ++ [t]) s2 := by
  induction h with
  | nil s => exact .cons h2 (.nil _)
  | cons a _ ih => exact .cons a (ih h2)

/-- what the sum of the times of a list of runs is. -/
noncomputable def sumReported (time : ℕ → ℝ) (data : ℝ) (l : List (ℕ × Ending)) : Res ℝ :=
  match l.find? fun y => y.2 ≠ .found with
  | some y => mergeReported time y
  | none => .ok (data + (l.map fun y => time y.1).sum)

theorem sum_reports {S : Type} {gen : S → G} {run : S → Option (Res ℝ × S)} {time : ℕ → ℝ} {f : G → (ℕ × Ending) × G} {n : ℕ} {s0 : S} {g : G}
    (h : ∀ m < n, ∀ s ts, OneByOne run s0 ts s → gen s = after f m g →
      (run s).map (fun r => (r.1, gen r.2)) = some (mergeReported time (f (after f m g)).1, (f (after f m g)).2)) :
    ∀ (k m : ℕ), m + k = n → ∀ (s : S) (ts : List ℝ) (data : ℝ), OneByOne run s0 ts s → gen s = after f m g →
      (ensembleSum run k s data).map Prod.fst = some (sumReported time data ((List.range k).map fun j => (f (after f (m + j) g)).1)) := by
  intro k
  induction k with
  | zero => intro m _ s ts data _ _; simp [ensembleSum, sumReported]
  | succ k ih =>
    intro m hm s ts data hs hg
    have e := h m (by omega) s ts hs hg
    have e2 : (List.range (k + 1)).map (fun j => (f (after f (m + j) g)).1) = (f (after f m g)).1 :: (List.range k).map fun j => (f (after f (m + 1 + j) g)).1 := by
      rw [List.range_succ_eq_map]
      simp only [List.map_cons, List.map_map, Nat.add_zero]
      congr 1
      refine List.map_congr_left fun j _ => ?_
      simp only [Function.comp]
      congr 3
      omega
    have e3 : (f (after f m g)).2 = after f (m + 1) g := by simp [after, Function.iterate_succ_apply']
    rw [e2]
    rw [e3] at e
    rw [ensembleSum]
    rcases hr : run s with _ | ⟨r, s1⟩
    · rw [hr] at e; simp at e
    · rw [hr] at e
      simp only [Option.map_some, Option.some.injEq, Prod.mk.injEq] at e
      obtain ⟨e4, e5⟩ := e
      obtain ⟨⟨T, ed⟩, hp⟩ : ∃ p : ℕ × Ending, p = (f (after f m g)).1 := ⟨_, rfl⟩
      rw [← hp] at e4 ⊢
      cases ed with
      | found =>
        simp only [mergeReported] at e4
        subst e4
        simp only
        rw [ih (m + 1) (by omega) s1 (ts ++ [time T]) (data + time T) (oneByOne_snoc hs hr) e5]
        generalize (List.range k).map (fun j => (f (after f (m + 1 + j) g)).1) = l
        simp only [sumReported, List.find?_cons, List.map_cons, List.sum_cons, ne_eq, not_true_eq_false, decide_false]
        congr 1
        cases l.find? fun y => decide ¬y.2 = Ending.found with
        | none => simp only [add_assoc]
        | some y => rfl
      | tooFar =>
        simp only [mergeReported] at e4
        subst e4
        simp [sumReported, mergeReported]
      | clock =>
        simp only [mergeReported] at e4
        subst e4
        simp [sumReported, mergeReported]

theorem mean_reports {S : Type} {run : S → Option (Res ℝ × S)} {time : ℕ → ℝ} {num : ℕ} {s : S} {ys : Fin num → ℕ × Ending}
    (h : (ensembleSum run num s 0).map Prod.fst = some (sumReported time 0 (List.ofFn ys))) :
    (ensembleMean run num s).map Prod.fst = some (meanReported time num ys) := by
  have e : (sumReported time 0 (List.ofFn ys)).map (· / (num : ℝ)) = meanReported time num ys := by
    unfold sumReported meanReported
    cases hf : (List.ofFn ys).find? fun y => decide (y.2 ≠ Ending.found) with
    | none => simp [Res.map, List.map_ofFn, List.sum_ofFn]
    | some y =>
      have := List.find?_some hf
      rcases y with ⟨T, _ | _ | _⟩
      · simp at this
      · rfl
      · rfl
  rw [← e]
  unfold ensembleMean
  have h0 : (Fl.zero : ℝ) = 0 := by simp
  rw [h0]
  rcases hs : ensembleSum run num s 0 with _ | ⟨r, s1⟩
  · rw [hs] at h; simp at h
  · rw [hs] at h
    simp only [Option.map_some, Option.some.injEq] at h
    simp only [Option.map_some, h, fl_ofNat]

theorem range_draws {X : Type} (f : G → X × G) (num : ℕ) (g : G) :
    (List.range num).map (fun j => (f (after f (0 + j) g)).1) = List.ofFn (drawsN f num g).1 := by
  refine List.ext_getElem (by simp) fun i h1 h2 => ?_
  simp only [List.getElem_map, List.getElem_range, List.getElem_ofFn, Nat.zero_add]
  rw [Props.drawsN_after]

end Moledyn
