import Verif.Model.Engout
import Mathlib.Tactic.NormNum

/-! # C53: how many temperature pairs and currents there are

A leg may be given several cold and several hot temperatures, and several reduced currents; one value is repeated as often
as needed, other lengths have to agree. -/

namespace TEflow.Engout
open TEflow.Ztdev (TEPoint)

/-- the entry of a list of values that takes part in case `i`: a single value takes part in every case -/
def entry {α : Type} (l : List α) (i : Nat) : Option α :=
  match l with
  | [a] => some a
  | l => l[i]?

/-- the two lengths fit together -/
def Fit (m n : Nat) : Prop := m = n ∨ m = 1 ∨ n = 1

/-- the number of cases for two fitting lengths -/
def caseCount (m n : Nat) : Nat := if m = 1 then n else m

theorem bcast_fit {α β : Type} (x : List α) (y : List β) (h : Fit x.length y.length) :
    ∃ z, bcast x y = .ok z ∧ z.length = caseCount x.length y.length ∧
      ∀ i < z.length, ∃ a b, entry x i = some a ∧ entry y i = some b ∧ z[i]? = some (a, b) := by
  have key : ∀ {γ : Type} (l : List γ) (i : Nat) (hi : i < l.length), entry l i = some l[i] := by
    intro γ l i hi
    match l, hi with
    | [], hi => simp at hi
    | [a], hi =>
      have : i = 0 := by simp at hi; exact hi
      subst this; rfl
    | a :: b :: l, hi => simp [entry, List.getElem?_eq_getElem hi]
  by_cases he : x.length = y.length
  · refine ⟨x.zip y, by simp [bcast, he], ?_, ?_⟩
    · simp [he, caseCount]
    · intro i hi
      rw [List.length_zip, he, Nat.min_self] at hi
      refine ⟨x[i]'(he ▸ hi), y[i], key _ _ _, key _ _ _, ?_⟩
      rw [List.getElem?_eq_getElem (by simp [he, hi])]
      simp
  · unfold bcast
    rw [if_neg he]
    rcases h with h | h | h
    · exact absurd h he
    · obtain ⟨a, rfl⟩ := List.length_eq_one_iff.mp h
      refine ⟨_, rfl, by simp [caseCount], ?_⟩
      intro i hi
      rw [List.length_map] at hi
      exact ⟨a, y[i], rfl, key _ _ _, by simp [List.getElem?_eq_getElem hi]⟩
    · obtain ⟨b, rfl⟩ := List.length_eq_one_iff.mp h
      match x, he with
      | [], _ => exact ⟨[], rfl, by simp [caseCount], by simp⟩
      | [a], he => simp at he
      | a :: a' :: x, _ =>
        refine ⟨_, rfl, by simp [caseCount], ?_⟩
        intro i hi
        rw [List.length_map] at hi
        exact ⟨(a :: a' :: x)[i], b, key _ _ _, rfl, by rw [List.getElem?_map, List.getElem?_eq_getElem hi]; rfl⟩

theorem bcast_unfit {α β : Type} (x : List α) (y : List β) (h : ¬ Fit x.length y.length) :
    bcast x y = .error .valueError := by
  unfold Fit at h
  push Not at h
  obtain ⟨h1, h2, h3⟩ := h
  unfold bcast
  rw [if_neg h1]
  match x, y, h2, h3 with
  | [], [], _, _ => simp at h1
  | [_], _, h2, _ => simp at h2
  | _, [_], _, h3 => simp at h3
  | [], _ :: _ :: _, _, _ => rfl
  | _ :: _ :: _, [], _, _ => rfl
  | _ :: _ :: _, _ :: _ :: _, _, _ => rfl

/-- the data can be integrated: not an empty table -/
def HasData : TEData → Prop
  | .table d => d ≠ []
  | .poly _ _ _ => True

theorem coreItgs_ok (data : TEData) (h : HasData data) (c t : ℝ) : ∃ i, coreItgs data c t = .ok i := by
  cases data with
  | poly _ _ _ => exact ⟨_, rfl⟩
  | table d =>
    cases d with
    | nil => exact absurd rfl h
    | cons p l => exact ⟨_, rfl⟩

theorem mapM_core (data : TEData) (h : HasData data) (l : List (ℝ × ℝ)) :
    ∃ is, (l.mapM fun (c, t) => coreItgs data c t) = Except.ok is ∧ is.length = l.length ∧
      ∀ (i : Nat) (c t : ℝ), l[i]? = some (c, t) → ∃ it, coreItgs data c t = .ok it ∧ is[i]? = some it := by
  induction l with
  | nil => exact ⟨[], rfl, rfl, by simp⟩
  | cons p l ih =>
    obtain ⟨is, h1, h2, h3⟩ := ih
    obtain ⟨c, t⟩ := p
    obtain ⟨it, hit⟩ := coreItgs_ok data h c t
    refine ⟨it :: is, ?_, by simp [h2], ?_⟩
    · rw [List.mapM_cons, h1]; simp only [hit]; rfl
    · intro i c' t' hi
      cases i with
      | zero =>
        simp only [List.getElem?_cons_zero, Option.some.injEq, Prod.mk.injEq] at hi
        obtain ⟨rfl, rfl⟩ := hi
        exact ⟨it, hit, by simp⟩
      | succ i => simpa using h3 i c' t' (by simpa using hi)

/-- **C53 (temperatures).** `build` of a leg with data: when the numbers of cold and hot temperatures agree, or one of
them is 1, there is one profile per case, computed from the temperatures of that case and kept in the leg; otherwise
`build` raises `ValueError` and leaves the leg as it was. -/
theorem C53_temperatures (g : Leg) (w : Bool) (hd : HasData g.data) :
    (Fit g.Tc.length g.Th.length → ∃ ps, g.build w = (.ok ps, { g with profiles := some ps }) ∧
      ps.length = caseCount g.Tc.length g.Th.length ∧
      ∀ i < ps.length, ∃ c h it, entry g.Tc i = some c ∧ entry g.Th i = some h ∧ coreItgs g.data c h = .ok it ∧
        ps[i]? = some (prfs g.L g.A w it)) ∧
    (¬ Fit g.Tc.length g.Th.length → g.build w = (.error .valueError, g)) := by
  constructor
  · intro hf
    obtain ⟨z, h1, h2, h3⟩ := bcast_fit g.Tc g.Th hf
    obtain ⟨is, k1, k2, k3⟩ := mapM_core g.data hd z
    have hc : g.compute w = .ok (is.map (prfs g.L g.A w)) := by
      simp only [Leg.compute, h1, bind, Except.bind]
      have := k1
      simp only [bind] at this
      rw [this]; rfl
    refine ⟨is.map (prfs g.L g.A w), by simp only [Leg.build, hc], by simp [k2, h2], ?_⟩
    intro i hi
    obtain ⟨a, b, e1, e2, e3⟩ := h3 i (by simpa [k2] using hi)
    obtain ⟨it, m1, m2⟩ := k3 i a b e3
    exact ⟨a, b, it, e1, e2, m1, by simp [m2]⟩
  · intro hf
    have hc : g.compute w = .error .valueError := by
      simp only [Leg.compute, bcast_unfit _ _ hf, bind, Except.bind]
    simp only [Leg.build, hc]

/-- **C53 (currents).** `simulate` with given reduced currents: when the numbers of profiles and currents agree, or one of
them is 1, there is one output per case, computed from the profile and the current of that case; otherwise `ValueError`.
`PowerMax` uses half the current everywhere, `YitaMax` the current `1/(1+m)` of each profile. -/
theorem C53_currents (ps : List Prfs) (l : List ℝ) :
    (Fit ps.length l.length → ∃ os, simulate (some ps) (.values l) = .ok os ∧ os.length = caseCount ps.length l.length ∧
      ∀ i < os.length, ∃ p x, entry ps i = some p ∧ entry l i = some x ∧ os[i]? = some (simulate1 p x)) ∧
    (¬ Fit ps.length l.length → simulate (some ps) (.values l) = .error .valueError) ∧
    simulate (some ps) (.str "PowerMax".toList) = .ok (ps.map fun p => simulate1 p (1 / 2)) ∧
    simulate (some ps) (.str "YitaMax".toList) = .ok (ps.map fun p => simulate1 p (1 / (1 + p.m_opt))) := by
  refine ⟨?_, ?_, ?_, ?_⟩
  · intro hf
    obtain ⟨z, h1, h2, h3⟩ := bcast_fit ps l hf
    refine ⟨z.map fun q => simulate1 q.1 q.2, ?_, by simp [h2], ?_⟩
    · simp only [simulate, currents, bind, Except.bind, h1]; rfl
    · intro i hi
      obtain ⟨a, b, e1, e2, e3⟩ := h3 i (by simpa using hi)
      exact ⟨a, b, e1, e2, by simp [e3]⟩
  · intro hf
    simp only [simulate, currents, bind, Except.bind, bcast_unfit _ _ hf]
  · obtain ⟨z, h1, h2, h3⟩ := bcast_fit ps [(1 / 2 : ℝ)] (Or.inr (Or.inr rfl))
    have hi : initial "PowerMax".toList = some 'p' := by decide
    have : z = ps.map (fun p => (p, (1 / 2 : ℝ))) := by
      have h4 : bcast ps [(1 / 2 : ℝ)] = .ok (ps.map (fun p => (p, (1 / 2 : ℝ)))) := by
        match ps with
        | [] => rfl
        | [_] => rfl
        | a :: b :: l => simp [bcast]
      rw [h4] at h1
      injection h1 with h1; exact h1.symm
    subst this
    simp only [simulate, currents, hi, bind, Except.bind]
    rw [if_neg (by decide), if_pos trivial]
    simp only [h1, pure, Except.pure, List.map_map, Function.comp_def]
  · have hi : initial "YitaMax".toList = some 'y' := by decide
    simp only [simulate, currents, hi, bind, Except.bind]
    rw [if_pos trivial]
    simp only [bcast, List.length_map, if_true, pure, Except.pure, List.zip_map_right, List.map_map]
    congr 1
    induction ps with
    | nil => rfl
    | cons p ps ih => simp_all

/-- one cold side and three hot sides fit, two and three do not -/
example : Fit [300].length [400, 500, 600].length ∧ caseCount 1 3 = 3 ∧ ¬ Fit 2 3 :=
  ⟨Or.inr (Or.inl rfl), rfl, by unfold Fit; omega⟩

example : HasData (.table [⟨300, 1000, 100, 2⟩]) := by simp [HasData]

end TEflow.Engout
