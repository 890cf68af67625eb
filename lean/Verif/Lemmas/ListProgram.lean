import Verif.Model.BundledPrograms
import Verif.Lemmas.FreshExp
import Verif.Lemmas.Neutral
/-
Helper lemmas: the program of tests/arguments.rs and that of tests/n_ptl_rts_iterator.rs make the same search.
-/
namespace Moledyn
open LList
set_option linter.unusedSimpArgs false
variable {G F S S' α β C C' : Type}

/-- two lists with the same links, whose contents correspond; the cursors are left out. -/
structure Corresponds (f : α → β) (l : LList α) (l' : LList β) : Prop where
  links : l'.links = l.links
  contents : l'.contents = l.contents.map f
  head : l'.head = l.head
  tail : l'.tail = l.tail
  c2 : l'.c2 = l.c2

/-- two loops over agents in lockstep. -/
theorem agentSweep_lockstep {R : S → S' → Prop} {K : α → Prop} {f : α → β}
    {act : Nat → S → α → (α × Res Bool) × S} {act' : Nat → S' → β → (β × Res Bool) × S'}
    (hact : ∀ i s s' a, R s s' → K a → (act' i s' (f a)).1 = (f (act i s a).1.1, (act i s a).1.2) ∧
      R (act i s a).2 (act' i s' (f a)).2 ∧ K (act i s a).1.1)
    (n : Nat) (l : LList α) (l' : LList β) (hl : Corresponds f l l') (hc0 : l'.c0 = l.c0) (hK : ∀ a ∈ l.contents, K a)
    (s : S) (s' : S') (h : R s s') :
    Corresponds f (agentSweep act n l s).1.1 (agentSweep act' n l' s').1.1 ∧
    (agentSweep act' n l' s').2 = (agentSweep act n l s).2 ∧
    R (agentSweep act n l s).1.2 (agentSweep act' n l' s').1.2 ∧
    ∀ a ∈ (agentSweep act n l s).1.1.contents, K a := by
  induction n generalizing l l' s s' with
  | zero => exact ⟨hl, rfl, h, hK⟩
  | succ n ih =>
    obtain ⟨lk', ct', hd', tl', c0', c1', c2'⟩ := l'
    obtain ⟨h1, h2, h3, h4, h5⟩ := hl
    simp only at h1 h2 h3 h4 h5 hc0
    subst h1 h2 h3 h4 h5 hc0
    unfold agentSweep
    unfold LList.enumerateMut
    simp only
    rcases hcur : l.c0 with _ | idx
    · exact ⟨⟨rfl, rfl, rfl, rfl, rfl⟩, rfl, h, hK⟩
    · simp only [Option.getD_some]
      rcases hnd : l.links[idx]? with _ | nd
      · exact ⟨⟨rfl, rfl, rfl, rfl, rfl⟩, rfl, h, hK⟩
      · simp only [List.getElem?_map]
        rcases ha : l.contents[idx]? with _ | a
        · exact ⟨⟨rfl, rfl, rfl, rfl, rfl⟩, rfl, h, hK⟩
        · have hKa := hK a (List.mem_of_getElem? ha)
          obtain ⟨h1, h2, h3⟩ := hact idx s s' a h hKa
          have e1 : (act' idx s' (f a)).1.1 = f (act idx s a).1.1 := by rw [h1]
          have e2 : (act' idx s' (f a)).1.2 = (act idx s a).1.2 := by rw [h1]
          have hK' : ∀ b ∈ l.contents.set idx (act idx s a).1.1, K b := by
            intro b hb
            rcases List.mem_or_eq_of_mem_set hb with hb | rfl
            · exact hK b hb
            · exact h3
          simp only [Option.map_some, e1, e2]
          match hr : (act idx s a).1.2 with
          | .ok false => exact ih _ _ ⟨rfl, by simp only [List.map_set], rfl, rfl, rfl⟩ rfl hK' _ _ h2
          | .ok true => exact ⟨⟨rfl, by simp only [List.map_set], rfl, rfl, rfl⟩, rfl, h2, hK'⟩
          | .err e => exact ⟨⟨rfl, by simp only [List.map_set], rfl, rfl, rfl⟩, rfl, h2, hK'⟩
          | .panic => exact ⟨⟨rfl, by simp only [List.map_set], rfl, rfl, rfl⟩, rfl, h2, hK'⟩

/-- the agent as `new_uniform` would have made it. -/
def IndepAgent.plain (a : IndepAgent F) : IndepAgent F :=
  { a with agentType := .continuousPassiveIndependent, itype := .uniform }

/-- what the list program and the plain program have in common during a search. -/
structure SameSearch (N n : Nat) (mtype : MoveType F) (s : ListSim G F) (s' : LList (IndepAgent F) × G) : Prop where
  alike : Corresponds IndepAgent.plain s.1 s'.1
  rng : s'.2 = s.2.2
  buf : s.2.1.length = n
  kind : ∀ a ∈ s.1.contents, a.dim = n ∧ a.mtype = mtype
  good : ∃ sl, Rep s'.1 sl ∧ sl.live.length = N ∧ s'.1.contents.length = N

/-- one turn of the one is one turn of the other (in any arithmetic in which a buffer of zeros is neutral). -/
theorem listAct_lockstep [Fl F] (hz : NeutralZero F) (rng : RngOps G F) (sys : SysOps G F) (target : TargetOps F) (n : Nat) (mtype : MoveType F)
    (dt : F) (i : Nat) (s : Pos F × G) (g : G) (a : IndepAgent F) (hs : g = s.2 ∧ s.1.length = n)
    (ha : a.dim = n ∧ a.mtype = mtype) :
    (walkAct (IndepAgent.walker rng) sys target dt i g a.plain).1 =
      ((listAct rng sys target dt i s a).1.1.plain, (listAct rng sys target dt i s a).1.2) ∧
    ((walkAct (IndepAgent.walker rng) sys target dt i g a.plain).2 = (listAct rng sys target dt i s a).2.2 ∧
      (listAct rng sys target dt i s a).2.1.length = n) ∧
    ((listAct rng sys target dt i s a).1.1.dim = n ∧ (listAct rng sys target dt i s a).1.1.mtype = mtype) := by
  obtain ⟨rfl, hb⟩ := hs
  obtain ⟨hd, hm⟩ := ha
  have hc : s.1.clear (Fl.zero : F) = List.replicate a.dim Fl.zero := by
    simp [Pos.clear, hd, hb, List.map_const']
  have hrm : ∀ g, a.plain.randomMove rng g dt = a.randomMove rng g dt := fun _ => rfl
  have hmt : ∀ g, (IndepAgent.walker rng).randomMove a.plain g dt = a.randomMove rng g dt := fun _ => rfl
  cases hmv : a.mtype with
  | brownian D =>
    obtain ⟨p, g', h1, h2, h3⟩ := variants_agree_any hz rng a D hmv s.2 dt
    unfold walkAct listAct
    rw [hmt, h1, hc, h3]
    simp only
    rw [show (IndepAgent.walker rng).pos a.plain = a.pos from rfl]
    rcases sys.checkBc a.pos p with ⟨q, r⟩
    cases r with
    | ok _ => exact ⟨rfl, ⟨rfl, by rw [h2, hd]⟩, hd, hm⟩
    | err e => exact ⟨rfl, ⟨rfl, by rw [h2, hd]⟩, hd, hm⟩
    | panic => exact ⟨rfl, ⟨rfl, by rw [h2, hd]⟩, hd, hm⟩
  | levy =>
    have h := ((Props.C39_random_move rng).1 a s.2 dt (List.replicate a.dim Fl.zero)).2.2 hmv
    have h3 := h.2 (by simp)
    unfold walkAct listAct
    rw [hmt, h.1, hc, h3]
    exact ⟨rfl, ⟨rfl, by simp [hd]⟩, hd, hm⟩

/-- one step of the one is one step of the other. -/
theorem listStep_lockstep [Fl F] (hz : NeutralZero F) (rng : RngOps G F) (sys : SysOps G F) (target : TargetOps F) {N n : Nat} {mtype : MoveType F}
    (dt : F) {fuel : Nat} (hf : N < fuel) {s : ListSim G F} {s' : LList (IndepAgent F) × G}
    (h : SameSearch N n mtype s s') :
    (walkStep (IndepAgent.walker rng) sys target fuel dt s').2 = (listStep rng sys target fuel dt s).2 ∧
    (listStep rng sys target fuel dt s).2 ≠ none ∧
    SameSearch N n mtype (listStep rng sys target fuel dt s).1
      (walkStep (IndepAgent.walker rng) sys target fuel dt s').1 := by
  obtain ⟨hal, hrng, hbuf, hkind, sl, hrep, hlive, hlen⟩ := h
  have hi : Rep s'.1.intoIter { sl with q0 := sl.live } := hrep.intoIter
  obtain ⟨s1, a1, a2, a3, a4, a5, -⟩ :=
    agentSweep_rep (walkAct (IndepAgent.walker rng) sys target dt) (fun _ _ _ _ => True) (fun _ => True) fuel s'.2 hi
      trivial (fun _ _ _ _ _ _ _ _ => ⟨trivial, trivial⟩)
  simp only at a2 a3 a4 a5
  have hal' : Corresponds IndepAgent.plain s.1.intoIter s'.1.intoIter :=
    ⟨hal.links, hal.contents, hal.head, hal.tail, hal.c2⟩
  obtain ⟨b1, b2, b3, b4⟩ := agentSweep_lockstep (R := fun (s : Pos F × G) g => g = s.2 ∧ s.1.length = n)
    (K := fun a : IndepAgent F => a.dim = n ∧ a.mtype = mtype) (f := IndepAgent.plain)
    (act := listAct rng sys target dt) (act' := walkAct (IndepAgent.walker rng) sys target dt)
    (fun i s g a hs ha => listAct_lockstep hz rng sys target n mtype dt i s g a hs ha)
    fuel s.1.intoIter s'.1.intoIter hal' hal.head hkind s.2 s'.2 ⟨hrng, hbuf⟩
  refine ⟨b2, ?_, b1, b3.1, b3.2, b4, s1, a1, by rw [a2, hlive], ?_⟩
  · show (agentSweep _ _ _ _).2 ≠ none
    rw [← b2]
    exact a5 (by omega)
  · show (agentSweep _ _ _ _).1.1.contents.length = N
    rw [a1.contents_eq, a4, ← hlen, hrep.contents_eq]

/-- what the list program says when the plain program, in as many turns as the clock allows, says the second: a time that gives the
plain program's time when `dt` is added. -/
def OneTickBefore [Fl F] (dt : F) (A : Option (Res (Option F))) : Option (Res (Option F)) → Prop
  | none => A = some (.ok none)
  | some (.ok (some t)) => ∃ x, A = some (.ok (some x)) ∧ x + dt = t
  | o => A = o

/-- the clock gives `M` more times and then ends. -/
def TicksLeft [Fl F] (c : ConstStep F) (M : Nat) : Prop :=
  (∀ j < M, Fl.le ((fun t : F => t + c.dt)^[j] c.current) c.tmax = true) ∧ Fl.le ((fun t : F => t + c.dt)^[M] c.current) c.tmax = false

/-- the searches of the two programs, with a clock that gives `M` more times. -/
theorem listSearch_lockstep [Fl F] (hz : NeutralZero F) (rng : RngOps G F) (sys : SysOps G F) (target : TargetOps F) {N n : Nat}
    {mtype : MoveType F} {fuel : Nat} (hf : N < fuel) (M : Nat) (c : ConstStep F) (hM : TicksLeft c M) (e : Nat)
    {s : ListSim G F} {s' : LList (IndepAgent F) × G} (h : SameSearch N n mtype s s') :
    let A := searchLoop constTick (listStep rng sys target fuel) (M + 1 + e) c s
    let B := searchLoop (countingTick c.dt) (walkStep (IndepAgent.walker rng) sys target fuel) M c.current s'
    OneTickBefore c.dt A.2 B.2 ∧ SameSearch N n mtype A.1.2 B.1.2 := by
  induction M generalizing c s s' with
  | zero =>
    intro A B
    have hn : c.next = (c, .ok none) := by
      unfold ConstStep.next
      simp only
      have := hM.2
      simp only [Function.iterate_zero, id_eq] at this
      rw [if_neg (by rw [this]; simp)]
    have hA : A = ((c, s), some (.ok none)) := by
      show searchLoop _ _ (0 + 1 + e) c s = _
      rw [show 0 + 1 + e = e + 1 by omega, searchLoop]
      simp only [constTick, hn]
    rw [hA]
    exact ⟨rfl, h⟩
  | succ M ih =>
    intro A B
    have hn : c.next = ({ c with current := c.current + c.dt }, .ok (some c.current)) := by
      unfold ConstStep.next
      simp only
      have := hM.1 0 (by omega)
      simp only [Function.iterate_zero, id_eq] at this
      rw [if_pos this]
    obtain ⟨k1, k2, k3⟩ := listStep_lockstep hz rng sys target c.dt hf h
    have hB : B = searchLoop (countingTick c.dt) (walkStep (IndepAgent.walker rng) sys target fuel) (M + 1) c.current s' := rfl
    have hA : A = searchLoop constTick (listStep rng sys target fuel) (M + 1 + e + 1) c s := by
      show searchLoop _ _ (M + 1 + 1 + e) c s = _
      rw [show M + 1 + 1 + e = M + 1 + e + 1 by omega]
    rw [hA, hB, searchLoop, searchLoop]
    simp only [constTick, hn, countingTick]
    rcases hl : listStep rng sys target fuel c.dt s with ⟨s1, o⟩
    rcases hw : walkStep (IndepAgent.walker rng) sys target fuel c.dt s' with ⟨s1', o'⟩
    rw [hl, hw] at k1 k3
    rw [hl] at k2
    simp only at k1 k2 k3
    subst k1
    match o', k2 with
    | none, k2 => exact absurd rfl k2
    | some (.ok true), _ => exact ⟨⟨_, rfl, rfl⟩, k3⟩
    | some (.err e), _ => exact ⟨rfl, k3⟩
    | some .panic, _ => exact ⟨rfl, k3⟩
    | some (.ok false), _ =>
      refine ih { c with current := c.current + c.dt } ⟨fun j hj => ?_, ?_⟩ k3
      · have := hM.1 (j + 1) (by omega)
        rwa [Function.iterate_succ_apply] at this
      · have := hM.2
        rwa [Function.iterate_succ_apply] at this

end Moledyn
