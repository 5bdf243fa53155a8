import Mathlib.Tactic.FieldSimp
import Mathlib.Tactic.Ring
import Mathlib.Tactic.NormNum
import Mathlib.Algebra.CharZero.Defs
import Mathlib.Algebra.Field.Rat
import Verif.Spec.Dataset
import Verif.Lemmas.DataFile

/-!
# Properties C19–C22: datasets

`getProp ds key none = .ok (.value t v)` reads "`get(key)` delivers the data `v` at the temperatures `t`".
-/

set_option linter.unusedSimpArgs false
set_option linter.unusedSectionVars false

namespace TEflow
open Loader PyDict

section C19
variable {ι τ K : Type} [Field K] [CharZero K]

theorem qCharge_ne : (qCharge : K) ≠ 0 := by unfold qCharge; norm_num

theorem getProp_value {δ : Type} {ds : Dataset τ (ι → K)} {key : String} {d : Option δ} {t : τ} {v : ι → K} :
    getProp ds key d = .ok (.value t v) ↔
      (∃ e, get? ds key = some e ∧ e.temp = t ∧ e.data = v) ∨ (get? ds key = none ∧ derive ds key = some (t, v)) := by
  unfold getProp
  cases h : get? ds key with
  | some e => simp
  | none =>
    cases h2 : derive ds key with
    | none => cases d <;> simp
    | some p => obtain ⟨a, b⟩ := p; simp

/-- **C19 (C and R).** Whenever `get` delivers both the conductivity and the resistivity and they are not both given by the
user, `C * R = 10^4` at every point where `C` is not zero. -/
theorem C19_C_R (ds : Dataset τ (ι → K)) (hcr : ¬ ("C" ∈ keys ds ∧ "R" ∈ keys ds)) (tc tr : τ) (c r : ι → K)
    (hC : getProp (δ := Empty) ds "C" none = .ok (.value tc c)) (hR : getProp (δ := Empty) ds "R" none = .ok (.value tr r))
    (i : ι) (hne : c i ≠ 0) : c i * r i = 10000 := by
  rw [getProp_value] at hC hR
  have hk : ∀ k, k ∈ keys ds ↔ (get? ds k).isSome := fun k => (isSome_get? ds k).symm
  rw [hk, hk] at hcr
  simp only [derive, if_true, getC, getR, show ("R" = "C") = False by simp, if_false] at hC hR
  cases h1 : get? ds "C" with
  | some e =>
    cases h2 : get? ds "R" with
    | some f => simp [h1, h2] at hcr
    | none =>
      simp only [h1, h2, Option.some.injEq, Prod.mk.injEq] at hC hR
      simp at hC hR
      rw [← hR.2, ← hC.2]
      rw [← hC.2] at hne
      field_simp
  | none =>
    cases h2 : get? ds "R" with
    | some f =>
      simp [h1, h2] at hC hR
      rw [← hR.2, ← hC.2]
      rw [← hC.2] at hne
      have : f.data i ≠ 0 := by intro h; simp [h] at hne
      field_simp
    | none =>
      simp only [h1, h2] at hC hR
      cases h3 : get? ds "N" with
      | none => simp [h3] at hC
      | some n =>
        cases h4 : get? ds "U" with
        | none => simp [h3, h4] at hC
        | some u =>
          by_cases ht : n.tidx = u.tidx
          · simp [h3, h4, ht] at hC hR
            rw [← hR.2, ← hC.2]
            rw [← hC.2] at hne
            simp only at hne
            exact mul_div_cancel₀ _ hne
          · simp [h3, h4, ht] at hC

/-- **C19 (C, N and U).** Whenever `get` delivers conductivity, carrier concentration and mobility, and the stored columns
do not over-determine them, `C = 1.602176634 * N * U` at every point where `N` and `U` are not zero. -/
theorem C19_C_N_U (ds : Dataset τ (ι → K)) (hcr : ¬ ("C" ∈ keys ds ∧ "R" ∈ keys ds))
    (hnu : ¬ ("N" ∈ keys ds ∧ "U" ∈ keys ds ∧ ("C" ∈ keys ds ∨ "R" ∈ keys ds))) (tc tn tu : τ) (c n u : ι → K)
    (hC : getProp (δ := Empty) ds "C" none = .ok (.value tc c)) (hN : getProp (δ := Empty) ds "N" none = .ok (.value tn n))
    (hU : getProp (δ := Empty) ds "U" none = .ok (.value tu u)) (i : ι) (hn : n i ≠ 0) (hu : u i ≠ 0) :
    c i = 1602176634 / 1000000000 * n i * u i := by
  have hq : (qCharge : K) ≠ 0 := qCharge_ne
  have hqd : (1602176634 / 1000000000 : K) = qCharge := rfl
  rw [hqd]
  rw [getProp_value] at hC hN hU
  have hk : ∀ k, k ∈ keys ds ↔ (get? ds k).isSome := fun k => (isSome_get? ds k).symm
  rw [hk, hk] at hcr
  rw [hk, hk, hk, hk] at hnu
  simp only [derive, if_true, getC, getN, getU, getVia, show ("N" = "C") = False by simp, show ("N" = "R") = False by simp,
    show ("U" = "C") = False by simp, show ("U" = "R") = False by simp, show ("U" = "N") = False by simp, if_false] at hC hN hU
  cases h1 : get? ds "C" <;> cases h2 : get? ds "R" <;> cases h3 : get? ds "N" <;> cases h4 : get? ds "U" <;>
    simp [h1, h2, h3, h4] at hcr hnu hC hN hU
  · rename_i en eu
    rw [← hC.2.2, ← hN.2, ← hU.2]
  · rename_i er eu
    rw [← hC.2, ← hU.2, ← hN.2.2]
    have hu' : eu.data i ≠ 0 := by rw [hU.2]; exact hu
    have hr' : er.data i ≠ 0 := by intro h; rw [← hN.2.2] at hn; simp [h] at hn
    field_simp
  · rename_i er en
    rw [← hC.2, ← hN.2, ← hU.2.2]
    have hn' : en.data i ≠ 0 := by rw [hN.2]; exact hn
    have hr' : er.data i ≠ 0 := by intro h; rw [← hU.2.2] at hu; simp [h] at hu
    field_simp
  · rename_i ec eu
    rw [← hC.2, ← hU.2, ← hN.2.2]
    have hu' : eu.data i ≠ 0 := by rw [hU.2]; exact hu
    field_simp
  · rename_i ec en
    rw [← hC.2, ← hN.2, ← hU.2.2]
    have hn' : en.data i ≠ 0 := by rw [hN.2]; exact hn
    field_simp

/-- all four properties are delivered when two stored columns of one temperature block determine them, e.g. R and U -/
example : ∃ c r n u : Fin 1 → ℚ,
    let ds : Dataset Unit (Fin 1 → ℚ) := [("R", ⟨fun _ => 10, (), -1⟩), ("U", ⟨fun _ => 50, (), -1⟩)]
    getProp (δ := Empty) ds "C" none = .ok (.value () c) ∧ getProp (δ := Empty) ds "R" none = .ok (.value () r) ∧
    getProp (δ := Empty) ds "N" none = .ok (.value () n) ∧ getProp (δ := Empty) ds "U" none = .ok (.value () u) ∧ c 0 = 1000 :=
  ⟨_, _, _, _, rfl, rfl, rfl, rfl, by norm_num⟩

end C19

section C20
variable {ι τ K δ : Type} [Field K]

/-- **C20 (get).** Stored data are returned verbatim, else a derivable value, else the default; `ValueError` exactly when
nothing is available and there is no default. -/
theorem C20_get (ds : Dataset τ (ι → K)) (key : String) (default : Option δ) :
    (∀ e, get? ds key = some e → getProp ds key default = .ok (.value e.temp e.data)) ∧
    (key ∉ keys ds → ∀ t v, derive ds key = some (t, v) → getProp ds key default = .ok (.value t v)) ∧
    (key ∉ keys ds → derive ds key = none → ∀ d, default = some d → getProp ds key default = .ok (.default d)) ∧
    (∀ x, getProp ds key default = .error x ↔ x = .valueError ∧ key ∉ keys ds ∧ derive ds key = none ∧ default = none) := by
  refine ⟨fun e he => by simp [getProp, he], fun hk t v h => ?_, fun hk h d hd => ?_, fun x => ?_⟩
  · rw [← get?_eq_none] at hk; simp [getProp, hk, h]
  · rw [← get?_eq_none] at hk; simp [getProp, hk, h, hd]
  · rw [← get?_eq_none]
    unfold getProp
    cases h : get? ds key with
    | some e => simp
    | none =>
      cases h2 : derive ds key with
      | some p => obtain ⟨a, b⟩ := p; simp
      | none => cases default <;> simp [eq_comm]

/-- **C20 (what is derivable).** Exactly this: C from R, or from N and U of one block; R from C, or from N and U of one
block; N (U) from U (N) with C, or with R, of the same block.  No other name is ever derived. -/
theorem C20_derivable (ds : Dataset τ (ι → K)) :
    ((derive ds "C").isSome ↔ "C" ∈ keys ds ∨ "R" ∈ keys ds ∨
      ∃ n u, get? ds "N" = some n ∧ get? ds "U" = some u ∧ n.tidx = u.tidx) ∧
    ((derive ds "R").isSome ↔ "R" ∈ keys ds ∨ "C" ∈ keys ds ∨
      ∃ n u, get? ds "N" = some n ∧ get? ds "U" = some u ∧ n.tidx = u.tidx) ∧
    ((derive ds "N").isSome ↔ "N" ∈ keys ds ∨
      ∃ u x, get? ds "U" = some u ∧ (get? ds "C" = some x ∨ get? ds "R" = some x) ∧ u.tidx = x.tidx) ∧
    ((derive ds "U").isSome ↔ "U" ∈ keys ds ∨
      ∃ n x, get? ds "N" = some n ∧ (get? ds "C" = some x ∨ get? ds "R" = some x) ∧ n.tidx = x.tidx) ∧
    ∀ key, key ∉ ["C", "R", "N", "U"] → derive ds key = none := by
  have hk : ∀ k, k ∈ keys ds ↔ (get? ds k).isSome := fun k => (isSome_get? ds k).symm
  refine ⟨?_, ?_, ?_, ?_, ?_⟩
  · simp only [derive, if_true, getC, hk]
    cases get? ds "C" <;> cases get? ds "R" <;> cases get? ds "N" <;> cases get? ds "U" <;> simp
  · simp only [derive, if_true, getR, hk, show ("R" = "C") = False by simp, if_false]
    cases get? ds "C" <;> cases get? ds "R" <;> cases get? ds "N" <;> cases get? ds "U" <;> simp
  · simp only [derive, if_true, getN, getVia, hk, show ("N" = "C") = False by simp, show ("N" = "R") = False by simp, if_false]
    cases get? ds "N" with
    | some n => simp
    | none =>
      cases get? ds "U" with
      | none => simp
      | some u =>
        cases get? ds "C" <;> cases get? ds "R" <;> simp
        · rename_i c r
          by_cases h1 : u.tidx = c.tidx
          · simp [h1]
          · by_cases h2 : u.tidx = r.tidx <;> simp [h1, h2]
            rw [h2] at h1; simp [h1]
  · simp only [derive, if_true, getU, getVia, hk, show ("U" = "C") = False by simp, show ("U" = "R") = False by simp,
      show ("U" = "N") = False by simp, if_false]
    cases get? ds "U" with
    | some n => simp
    | none =>
      cases get? ds "N" with
      | none => simp
      | some u =>
        cases get? ds "C" <;> cases get? ds "R" <;> simp
        · rename_i c r
          by_cases h1 : u.tidx = c.tidx
          · simp [h1]
          · by_cases h2 : u.tidx = r.tidx <;> simp [h1, h2]
            rw [h2] at h1; simp [h1]
  · intro key hkey
    simp only [List.mem_cons, List.not_mem_nil, or_false, not_or] at hkey
    simp [derive, hkey]

/-- **C20 ([]).** `[]` returns stored data only: it succeeds exactly for stored names, with `get`'s value, and raises
`KeyError` otherwise. -/
theorem C20_getitem (ds : Dataset τ (ι → K)) (key : String) :
    (∀ t v, getItem ds key = .ok (t, v) ↔ ∃ e, get? ds key = some e ∧ e.temp = t ∧ e.data = v) ∧
    (getItem ds key = .error .keyError ↔ key ∉ keys ds) := by
  rw [← get?_eq_none]
  unfold getItem
  cases get? ds key <;> simp

/-- **C20 (gget).** `gget` is `get` item by item: the results in order, or the first error. -/
theorem C20_gget (ds : Dataset τ (ι → K)) (default : Option δ) (gs : List String) (vs : List (GetOut δ τ (ι → K))) :
    gget ds default gs = .ok vs ↔ List.Forall₂ (fun g v => getProp ds g default = .ok v) gs vs := by
  induction gs generalizing vs with
  | nil => rw [gget]; simp only [List.forall₂_nil_left_iff]; constructor
           · intro h; injection h with h; exact h.symm
           · rintro rfl; rfl
  | cons g gs ih =>
    rw [gget]
    cases h : getProp ds g default with
    | error e => simp only; constructor
                 · intro h'; cases h'
                 · intro h'; cases h' with | cons h1 _ => rw [h] at h1; cases h1
    | ok v =>
      cases h2 : gget ds default gs with
      | error e =>
        simp only
        constructor
        · intro h'; cases h'
        · intro h'
          cases h' with | cons h1 h3 => rw [(ih _).mpr h3] at h2; cases h2
      | ok ws =>
        simp only
        constructor
        · intro h'; injection h' with h'; subst h'
          exact List.Forall₂.cons h ((ih ws).mp h2)
        · intro h'
          cases h' with
          | cons h1 h3 =>
            have e1 := (ih _).mpr h3
            rw [h2] at e1; injection e1 with e1
            rw [h] at h1; injection h1 with h1
            rw [e1, h1]

end C20

section C21
variable {α : Type}

/-- `e` is what TEdataset2 has to store for `g` after the first `m` pairs of `z`: the data of the last pair named `g`,
linked to the nearest temperature column before it -/
def Linked (z : List (String × α)) (m : Nat) (g : String) (e : Entry α α) : Prop :=
  g ≠ "T" ∧ g ≠ "X" ∧ ∃ i, i < m ∧ z[i]? = some (g, e.data) ∧ (∀ k, i < k → k < m → (z[k]?.map Prod.fst) ≠ some g) ∧
    ∃ j : Nat, j < i ∧ e.tidx = j ∧ z[j]? = some ("T", e.temp) ∧ ∀ k, j < k → k < i → (z[k]?.map Prod.fst) ≠ some "T"

theorem initTE2Go_spec (all : List α) (z : List (String × α)) (hz : ∀ (j : Nat) (p : String × α), z[j]? = some p → all[j]? = some p.2)
    (m idx : Nat) (ds : Dataset α α) (hm : m ≤ z.length)
    (hidx : 0 < m → idx < m ∧ (∃ t, z[idx]? = some ("T", t)) ∧ ∀ k, idx < k → k < m → (z[k]?.map Prod.fst) ≠ some "T")
    (h0 : m = 0 → idx = 0)
    (hinv : ∀ g e, get? ds g = some e ↔ Linked z m g e) :
    (0 < m ∨ (z.head?.map Prod.fst) = some "T" ∨ z = [] → ∃ ds', initTE2Go all m idx ds (z.drop m) = .ok ds' ∧
      ∀ g e, get? ds' g = some e ↔ Linked z z.length g e) ∧
    (m = 0 → z ≠ [] → (z.head?.map Prod.fst) ≠ some "T" → initTE2Go all m idx ds (z.drop m) = .error .valueError) := by
  induction hk : z.length - m generalizing m idx ds with
  | zero =>
    have : z.drop m = [] := List.drop_eq_nil_of_le (by omega)
    rw [this]
    have hmz : m = z.length := by omega
    refine ⟨fun _ => ⟨ds, rfl, by rw [← hmz]; exact hinv⟩, fun h hne => ?_⟩
    exfalso; apply hne; apply List.length_eq_zero_iff.mp; omega
  | succ k ih =>
    have hlt : m < z.length := by omega
    obtain ⟨⟨g, d⟩, hgd⟩ : ∃ p, z[m]? = some p := ⟨z[m], List.getElem?_eq_getElem hlt⟩
    have hdrop : z.drop m = (g, d) :: z.drop (m + 1) := by
      rw [List.drop_eq_getElem_cons hlt]
      rw [List.getElem?_eq_getElem hlt] at hgd; injection hgd with hgd
      rw [hgd]
    rw [hdrop, initTE2Go]
    by_cases hT : g = "T"
    · subst hT
      simp only [if_true]
      have hinv' : ∀ g e, get? ds g = some e ↔ Linked z (m + 1) g e := by
        intro g e
        rw [hinv]
        constructor
        · rintro ⟨h1, h2, i, hi, h3, h4, h5⟩
          refine ⟨h1, h2, i, by omega, h3, ?_, h5⟩
          intro k hk1 hk2
          by_cases hkm : k = m
          · subst hkm; rw [hgd]; simpa using fun h => h1 h.symm
          · exact h4 k hk1 (by omega)
        · rintro ⟨h1, h2, i, hi, h3, h4, h5⟩
          have : i ≠ m := by rintro rfl; rw [hgd] at h3; simp at h3; exact h1 h3.1.symm
          exact ⟨h1, h2, i, by omega, h3, fun k hk1 hk2 => h4 k hk1 (by omega), h5⟩
      have key := (ih (m + 1) m ds (by omega) (fun _ => ⟨by omega, ⟨d, hgd⟩, fun k h1 h2 => by omega⟩) (by omega) hinv' (by omega)).1
        (Or.inl (by omega))
      refine ⟨fun _ => key, fun h0m _ hh => ?_⟩
      subst h0m
      exfalso; apply hh
      rw [List.head?_eq_getElem?, hgd]; rfl
    · simp only [hT, if_false]
      by_cases hm0 : m = 0
      · have := h0 hm0
        subst hm0; subst this
        simp only [lt_irrefl, if_false]
        refine ⟨fun h => ?_, by simp⟩
        exfalso
        rcases h with h | h | h
        · omega
        · rw [List.head?_eq_getElem?, hgd] at h; simp at h; exact hT h
        · rw [h] at hlt; simp at hlt
      · obtain ⟨hi1, ⟨t, ht⟩, hi3⟩ := hidx (by omega)
        simp only [hi1, if_true]
        refine ⟨fun _ => ?_, fun h => absurd h hm0⟩
        by_cases hX : g = "X"
        · subst hX
          simp only [if_true]
          have hinv' : ∀ g e, get? ds g = some e ↔ Linked z (m + 1) g e := by
            intro g e
            rw [hinv]
            constructor
            · rintro ⟨h1, h2, i, hi, h3, h4, h5⟩
              refine ⟨h1, h2, i, by omega, h3, ?_, h5⟩
              intro k hk1 hk2
              by_cases hkm : k = m
              · subst hkm; rw [hgd]; simpa using fun h => h2 h.symm
              · exact h4 k hk1 (by omega)
            · rintro ⟨h1, h2, i, hi, h3, h4, h5⟩
              have : i ≠ m := by rintro rfl; rw [hgd] at h3; simp at h3; exact h2 h3.1.symm
              exact ⟨h1, h2, i, by omega, h3, fun k hk1 hk2 => h4 k hk1 (by omega), h5⟩
          refine (ih (m + 1) idx ds (by omega) (fun _ => ⟨by omega, ⟨t, ht⟩, ?_⟩) (by omega) hinv' (by omega)).1 (Or.inl (by omega))
          intro k h1 h2
          by_cases hkm : k = m
          · subst hkm; rw [hgd]; simp
          · exact hi3 k h1 (by omega)
        · simp only [hX, if_false]
          have hall := hz idx _ ht
          simp only at hall
          rw [hall]
          simp only
          refine (ih (m + 1) idx _ (by omega) (fun _ => ⟨by omega, ⟨t, ht⟩, ?_⟩) (by omega) ?_ (by omega)).1 (Or.inl (by omega))
          · intro k h1 h2
            by_cases hkm : k = m
            · subst hkm; rw [hgd]; simpa using hT
            · exact hi3 k h1 (by omega)
          · intro g' e
            rw [get?_set]
            by_cases hg : g = g'
            · subst hg
              simp only [if_true, Option.some.injEq]
              constructor
              · rintro rfl
                exact ⟨hT, hX, m, by omega, hgd, fun k h1 h2 => by omega, idx, hi1, rfl, ht, hi3⟩
              · rintro ⟨_, _, i, hi, h3, h4, j, hj, h5, h6, h7⟩
                have him : i = m := by
                  by_contra hne
                  exact h4 m (by omega) (by omega) (by rw [hgd]; rfl)
                subst him
                have hji : j = idx := by
                  rcases lt_trichotomy j idx with h | h | h
                  · exact absurd (by rw [ht]; rfl) (h7 idx h hi1)
                  · exact h
                  · exact absurd (by rw [h6]; rfl) (hi3 j h hj)
                subst hji
                rw [hgd] at h3; rw [ht] at h6
                simp at h3 h6
                obtain ⟨ed, et, ei⟩ := e
                simp only at *
                subst h3; subst h6; subst h5; rfl
            · simp only [hg, if_false]
              rw [hinv]
              constructor
              · rintro ⟨h1, h2, i, hi, h3, h4, h5⟩
                refine ⟨h1, h2, i, by omega, h3, ?_, h5⟩
                intro k hk1 hk2
                by_cases hkm : k = m
                · subst hkm; rw [hgd]; simpa using hg
                · exact h4 k hk1 (by omega)
              · rintro ⟨h1, h2, i, hi, h3, h4, h5⟩
                have : i ≠ m := by rintro rfl; rw [hgd] at h3; simp at h3; exact hg h3.1
                exact ⟨h1, h2, i, by omega, h3, fun k hk1 hk2 => h4 k hk1 (by omega), h5⟩

theorem zip_data (group : List String) (data : List α) (j : Nat) (p : String × α) (h : (group.zip data)[j]? = some p) :
    group[j]? = some p.1 ∧ data[j]? = some p.2 := by
  rw [List.getElem?_zip_eq_some] at h; exact h

/-- **C21 (success).** Building a `TEdataset2` fails, with `ValueError`, exactly when there is a first column and its
identifier is not the temperature. -/
theorem C21_build (data : List α) (group : List String) :
    ((∃ ds, initTE2 data group = .ok ds) ↔ group.zip data = [] ∨ group.head? = some "T") ∧
    ((∀ ds, initTE2 data group ≠ .ok ds) → initTE2 data group = .error .valueError) := by
  have key := initTE2Go_spec data (group.zip data) (fun j p h => (zip_data group data j p h).2) 0 0 [] (by omega) (by omega)
    (fun _ => rfl) (by intro g e; simp [Linked])
  rw [List.drop_zero] at key
  obtain ⟨k1, k2⟩ := key
  have hhead : group.zip data ≠ [] → ((group.zip data).head?.map Prod.fst) = group.head? := by
    intro h; cases group with
    | nil => simp at h
    | cons a g => cases data with
      | nil => simp at h
      | cons b d => simp
  unfold initTE2
  by_cases hz : group.zip data = []
  · obtain ⟨ds, hds, _⟩ := k1 (Or.inr (Or.inr hz))
    exact ⟨⟨fun _ => Or.inl hz, fun _ => ⟨ds, hds⟩⟩, fun h => absurd hds (h ds)⟩
  · by_cases hT : group.head? = some "T"
    · obtain ⟨ds, hds, _⟩ := k1 (Or.inr (Or.inl (by rw [hhead hz]; exact hT)))
      exact ⟨⟨fun _ => Or.inr hT, fun _ => ⟨ds, hds⟩⟩, fun h => absurd hds (h ds)⟩
    · have he := k2 rfl hz (by rw [hhead hz]; exact hT)
      rw [he]
      simp [hz, hT]

/-- **C21 (pairing).** In a built `TEdataset2` a name is stored exactly when a column with it occurs (T and X excepted);
what is stored is the last such column, linked to the temperature column nearest before it. -/
theorem C21_pairing (data : List α) (group : List String) (ds : Dataset α α) (h : initTE2 data group = .ok ds)
    (g : String) (e : Entry α α) : get? ds g = some e ↔ Linked (group.zip data) (group.zip data).length g e := by
  have key := initTE2Go_spec data (group.zip data) (fun j p h => (zip_data group data j p h).2) 0 0 [] (by omega) (by omega)
    (fun _ => rfl) (by intro g e; simp [Linked])
  rw [List.drop_zero] at key
  obtain ⟨k1, k2⟩ := key
  by_cases hc : ((group.zip data).head?.map Prod.fst) = some "T" ∨ group.zip data = []
  · obtain ⟨ds', h1, h2⟩ := k1 (Or.inr hc)
    unfold initTE2 at h
    rw [h] at h1; injection h1 with h1; subst h1
    exact h2 g e
  · push Not at hc
    have := k2 rfl hc.2 hc.1
    unfold initTE2 at h
    rw [h] at this; cases this

/-- **C21 (blocks).** Two stored properties with the same temperature index have the same temperature column, so a derived
carrier concentration or mobility only combines columns of one temperature block, and carries its temperature. -/
theorem C21_blocks {ι K : Type} [Field K] (data : List (ι → K)) (group : List String) (ds : Dataset (ι → K) (ι → K))
    (h : initTE2 data group = .ok ds) :
    (∀ a b x y, get? ds a = some x → get? ds b = some y → x.tidx = y.tidx → x.temp = y.temp) ∧
    (∀ t v, "N" ∉ keys ds → derive ds "N" = some (t, v) →
      ∃ u x, get? ds "U" = some u ∧ (get? ds "C" = some x ∨ get? ds "R" = some x) ∧ u.tidx = x.tidx ∧ t = u.temp ∧ t = x.temp) ∧
    (∀ t v, "U" ∉ keys ds → derive ds "U" = some (t, v) →
      ∃ n x, get? ds "N" = some n ∧ (get? ds "C" = some x ∨ get? ds "R" = some x) ∧ n.tidx = x.tidx ∧ t = n.temp ∧ t = x.temp) := by
  have hsame : ∀ a b x y, get? ds a = some x → get? ds b = some y → x.tidx = y.tidx → x.temp = y.temp := by
    intro a b x y hx hy hxy
    rw [C21_pairing data group ds h] at hx hy
    obtain ⟨_, _, _, _, _, _, j, _, h5, h6, _⟩ := hx
    obtain ⟨_, _, _, _, _, _, j', _, h5', h6', _⟩ := hy
    rw [h5, h5'] at hxy
    have : j = j' := by exact_mod_cast hxy
    subst this
    rw [h6] at h6'; simp at h6'; exact h6'
  have hvia : ∀ (k : String) (t : ι → K) (v : ι → K), getVia ds (get? ds k) = some (t, v) →
      ∃ u x, get? ds k = some u ∧ (get? ds "C" = some x ∨ get? ds "R" = some x) ∧ u.tidx = x.tidx ∧ t = u.temp ∧ t = x.temp := by
    intro k t v hv
    cases hk : get? ds k with
    | none => simp [getVia, hk] at hv
    | some u =>
      have hR : ∀ r, get? ds "R" = some r → u.tidx = r.tidx → t = u.temp →
          ∃ u' x, some u = some u' ∧ (get? ds "C" = some x ∨ get? ds "R" = some x) ∧ u'.tidx = x.tidx ∧ t = u'.temp ∧ t = x.temp :=
        fun r hr htr ht => ⟨u, r, rfl, Or.inr hr, htr, ht, by rw [ht]; exact hsame k "R" u r hk hr htr⟩
      have hC : ∀ c, get? ds "C" = some c → u.tidx = c.tidx → t = u.temp →
          ∃ u' x, some u = some u' ∧ (get? ds "C" = some x ∨ get? ds "R" = some x) ∧ u'.tidx = x.tidx ∧ t = u'.temp ∧ t = x.temp :=
        fun c hc htc ht => ⟨u, c, rfl, Or.inl hc, htc, ht, by rw [ht]; exact hsame k "C" u c hk hc htc⟩
      simp only [getVia, hk] at hv
      cases hc : get? ds "C" with
      | some c =>
        rw [hc] at hv hC hR
        simp only at hv
        split at hv
        · rename_i htc
          simp only [Option.some.injEq, Prod.mk.injEq] at hv
          exact hC c rfl htc hv.1.symm
        · cases hr : get? ds "R" with
          | none => rw [hr] at hv; cases hv
          | some r =>
            rw [hr] at hv hC hR
            simp only at hv
            split at hv
            · rename_i htr
              simp only [Option.some.injEq, Prod.mk.injEq] at hv
              exact hR r rfl htr hv.1.symm
            · cases hv
      | none =>
        rw [hc] at hv hC hR
        simp only at hv
        cases hr : get? ds "R" with
        | none => rw [hr] at hv; cases hv
        | some r =>
          rw [hr] at hv hC hR
          simp only at hv
          split at hv
          · rename_i htr
            simp only [Option.some.injEq, Prod.mk.injEq] at hv
            exact hR r rfl htr hv.1.symm
          · cases hv
  refine ⟨hsame, ?_, ?_⟩
  · intro t v hn hd
    rw [← get?_eq_none] at hn
    have : derive ds "N" = getVia ds (get? ds "U") := by simp [derive, getN, hn]
    rw [this] at hd
    exact hvia "U" t v hd
  · intro t v hn hd
    rw [← get?_eq_none] at hn
    have : derive ds "U" = getVia ds (get? ds "N") := by simp [derive, getU, hn]
    rw [this] at hd
    exact hvia "N" t v hd

/-- T, R, S, T, K, N as in a real file: R and S belong to column 0, K and N to column 3 -/
example : (initTE2 [10, 11, 12, 20, 21, 22] ["T", "R", "S", "T", "K", "X"]).map (fun ds => ds.map (fun p => (p.1, p.2.data, p.2.temp, p.2.tidx)))
    = .ok [("R", 11, 10, 0), ("S", 12, 10, 0), ("K", 21, 20, 3)] := by rfl
example : (initTE2 [10, 11] ["X", "T"]).map (fun ds => ds.length) = .error .valueError := by rfl

end C21

/-! ### C22 -/

section C22

theorem matchAt_prop (b : List Char) (c : Char) (r : List Char) :
    Re.matchAt propRe ⟨b, c :: r⟩ = if isUpper c then
      some ((⟨b, c :: r⟩ : Pos).adv (if (r.head?.map isIdTail) = some true then 2 else 1)) else none := by
  unfold Re.matchAt propRe
  by_cases h : isUpper c = true
  · simp only [h, if_true]
    refine (Re.head?_seq (Re.head?_cls isUpper b c r h) (Re.head?_opt_cls _ _)).trans ?_
    have : ((⟨b, c :: r⟩ : Pos).adv 1).rest = r := rfl
    rw [this]
    split
    · rw [Pos.adv_adv _ _ _ (by simp)]
    · rfl
  · simp [Re.run, h]

theorem idTail_not_upper {c : Char} (h : isIdTail c = true) : isUpper c = false := by
  simp only [isIdTail, Bool.or_eq_true, beq_iff_eq] at h
  rcases h with (h | h) | h
  · exact lower_not_upper h
  · exact digit_not_upper h
  · subst h; decide

theorem capital_iff (c : Char) : Capital c ↔ isUpper c = true := by
  unfold Capital isUpper
  simp only [Bool.and_eq_true, decide_eq_true_eq]

theorem follows_iff (c : Char) : Follows c ↔ isIdTail c = true := by
  unfold Follows isIdTail isLower isDigit
  simp only [Bool.and_eq_true, Bool.or_eq_true, decide_eq_true_eq, beq_iff_eq, or_assoc]

/-- `identAt` in terms of the classes of characters of the program -/
theorem identAt_eq (c : Char) (r : List Char) : identAt (c :: r) =
    if isUpper c then
      match r with
      | [] => some [c]
      | d :: _ => some (if isIdTail d then [c, d] else [c])
    else none := by
  cases r with
  | nil => unfold identAt; simp only [capital_iff]
  | cons d r => unfold identAt; simp only [capital_iff, follows_iff]

theorem findGo_prop (n : Nat) (b r : List Char) (hn : r.length ≤ n) :
    (Re.findGo propRe n ⟨b, r⟩).map (fun p => Re.between p.1 p.2) = r.tails.filterMap identAt := by
  induction n generalizing b r with
  | zero => simp at hn; subst hn; rfl
  | succ n ih =>
    cases r with
    | nil => rfl
    | cons c r =>
      simp only [List.length_cons, Nat.add_le_add_iff_right] at hn
      rw [Re.findGo]
      simp only [matchAt_prop, List.tails, List.filterMap_cons]
      by_cases h : isUpper c = true
      · simp only [h, if_true]
        cases r with
        | nil =>
          simp [identAt_eq, h, Re.between, Pos.adv]
          have h0 : identAt [] = none := rfl
          cases n <;> simp [Re.findGo, h0]
        | cons d r =>
          by_cases hd : isIdTail d = true
          · have hdu := idTail_not_upper hd
            simp only [List.head?_cons, Option.map_some, hd, if_true, identAt_eq, h]
            have hlt : ((⟨b, c :: d :: r⟩ : Pos).adv 2).rest.length < (c :: d :: r).length := by simp; omega
            simp only [hlt, if_true, List.map_cons]
            rw [show (⟨b, c :: d :: r⟩ : Pos).adv 2 = ⟨d :: c :: b, r⟩ from rfl, ih _ _ (by simp at hn; omega)]
            simp only [List.tails, List.filterMap_cons, identAt_eq, hdu, Bool.false_eq_true, if_false]
            congr 1
            simp [Re.between]
            rw [show r.length + 1 + 1 - r.length = 2 by omega]; rfl
          · simp only [List.head?_cons, Option.map_some, hd, identAt_eq, h, if_true]
            have hlt : ((⟨b, c :: d :: r⟩ : Pos).adv 1).rest.length < (c :: d :: r).length := by simp
            simp only [Option.some.injEq, Bool.false_eq_true, if_false, hlt, if_true, List.map_cons]
            rw [show (⟨b, c :: d :: r⟩ : Pos).adv 1 = ⟨c :: b, d :: r⟩ from rfl, ih _ _ hn]
            congr 1
            simp [Re.between]
      · simp only [h, Bool.false_eq_true, if_false, identAt_eq]
        exact ih _ _ hn

/-- **C22 (text).** A text is split into the identifiers starting at its upper-case letters, in order. -/
theorem C22_text (s : List Char) : parseGroup (.text s) = .ok (s.tails.filterMap identAt) := by
  unfold parseGroup Re.findAll
  simp only
  rw [findGo_prop s.length [] s (le_refl _)]

/-- **C22 (round trip).** Identifiers written one after the other are read back. -/
theorem C22_round_trip (ids : List (List Char)) (h : ∀ n ∈ ids, Ident n) : parseGroup (.text ids.flatten) = .ok ids := by
  rw [C22_text]
  congr 1
  have hclean : ∀ l : List (List Char), (∀ n ∈ l, Ident n) → ∀ c, l.flatten.head? = some c → isUpper c = true := by
    intro l hl c hc
    cases l with
    | nil => simp at hc
    | cons n l =>
      rcases hl n (by simp) with ⟨a, rfl, ha⟩ | ⟨a, d, rfl, ha, _⟩ <;> rw [capital_iff] at ha
      · simp at hc; subst hc; exact ha
      · simp at hc; subst hc; exact ha
  induction ids with
  | nil => rfl
  | cons n ids ih =>
    have ih' := ih (fun m hm => h m (by simp [hm]))
    have hcl := hclean ids (fun m hm => h m (by simp [hm]))
    rcases h n (by simp) with ⟨a, rfl, ha⟩ | ⟨a, d, rfl, ha, hd⟩ <;> rw [capital_iff] at ha <;> try rw [follows_iff] at hd
    · simp only [List.flatten_cons, List.cons_append, List.nil_append, List.tails, List.filterMap_cons]
      cases hf : ids.flatten with
      | nil => rw [hf] at ih'; simp only [identAt_eq, ha, if_true]; rw [ih']
      | cons c r =>
        have hc := hcl c (by rw [hf]; rfl)
        have : isIdTail c = false := by
          by_contra h'; rw [Bool.not_eq_false] at h'; rw [idTail_not_upper h'] at hc; cases hc
        rw [hf] at ih'
        simp only [identAt_eq, ha, if_true, this, Bool.false_eq_true, if_false]
        rw [ih']
    · simp only [List.flatten_cons, List.cons_append, List.nil_append, List.tails, List.filterMap_cons, identAt_eq, ha, hd, if_true,
        idTail_not_upper hd, Bool.false_eq_true, if_false]
      rw [ih']

/-- **C22 (other arguments).** A sequence is returned as it is, anything else raises `ValueError`. -/
theorem C22_other (l : List (List Char)) :
    parseGroup (.seq l) = .ok l ∧ parseGroup .other = .error .valueError := ⟨rfl, rfl⟩

example : parseGroup (.text "TS, K2 n_ LXCp".toList) =
    .ok ["T".toList, "S".toList, "K2".toList, "L".toList, "X".toList, "Cp".toList] := by decide +kernel

end C22
end TEflow
