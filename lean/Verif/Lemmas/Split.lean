import Mathlib.Tactic
import Verif.Model.Split
import Verif.Lemmas.Re

/-! # The segments found by `split_monotonic`, as a scan without regular expressions -/

namespace TEflow.Mathext
open TEflow.Re

/-- length of the longest prefix of `r` not longer than `n` that ends with the letter `a` -/
def coreLen (a : Char) (r : List Char) : Nat → Nat
  | 0 => 0
  | n + 1 => if r[n]? = some a then n + 1 else coreLen a r n

theorem coreLen_le (a : Char) (r : List Char) (n : Nat) : coreLen a r n ≤ n := by
  induction n with
  | zero => simp [coreLen]
  | succ n ih => rw [coreLen]; split <;> omega

theorem coreLen_last (a : Char) (r : List Char) (n : Nat) (h : 0 < coreLen a r n) :
    r[coreLen a r n - 1]? = some a := by
  induction n with
  | zero => simp [coreLen] at h
  | succ n ih =>
    rw [coreLen] at h ⊢
    split
    · simpa
    · rename_i hn; rw [if_neg hn] at h; exact ih h

theorem coreLen_max (a : Char) (r : List Char) (n i : Nat) (h1 : coreLen a r n ≤ i) (h2 : i < n) :
    r[i]? ≠ some a := by
  induction n with
  | zero => omega
  | succ n ih =>
    rw [coreLen] at h1
    split at h1
    · omega
    · rename_i hn
      rcases Nat.lt_succ_iff_lt_or_eq.mp h2 with h | h
      · exact ih h1 h
      · subst h; exact hn

/-- the characters a segment of `a` may contain -/
def inSeg (a c : Char) : Bool := c == a || c == 'S'

/-- number of further letters a segment takes after its first letter `a` when `r` follows -/
def segLen (a : Char) (r : List Char) : Nat := coreLen a r (r.takeWhile (inSeg a)).length

theorem run_chr_adv (a : Char) (s : Pos) (k : Nat) :
    run (.chr a) (s.adv k) = if s.rest[k]? = some a then [s.adv (k + 1)] else [] := by
  unfold Re.chr
  by_cases hk : k < s.rest.length
  · have e : s.adv k = ⟨(s.rest.take k).reverse ++ s.before, s.rest[k] :: s.rest.drop (k + 1)⟩ := by
      rw [Pos.adv, List.drop_eq_getElem_cons hk]
    rw [e, run_cls_cons]
    have e2 : s.adv (k + 1) = ⟨s.rest[k] :: ((s.rest.take k).reverse ++ s.before), s.rest.drop (k + 1)⟩ := by
      rw [Pos.adv, List.take_add_one, List.getElem?_eq_getElem hk, Option.toList_some, List.reverse_append]; rfl
    rw [e2, List.getElem?_eq_getElem hk]
    simp
  · have : s.rest[k]? = none := by simpa using hk
    rw [this]
    have e : s.adv k = ⟨(s.rest.take k).reverse ++ s.before, []⟩ := by
      simp [Pos.adv]; omega
    rw [e, run_cls_nil]; simp

theorem head?_downTo (a : Char) (s : Pos) (n : Nat) :
    (((downTo n).flatMap fun k => run (.chr a) (s.adv k)) ++ [s]).head? = some (s.adv (coreLen a s.rest (n + 1))) := by
  induction n with
  | zero =>
    simp only [downTo, List.flatMap_cons, List.flatMap_nil, run_chr_adv, coreLen]
    split <;> simp_all
  | succ n ih =>
    rw [downTo_succ, List.flatMap_cons, run_chr_adv, coreLen]
    split
    · simp
    · simpa using ih

theorem takeWhile_stop' {α : Type} (p : α → Bool) (r : List α) (c : α) (h : r[(r.takeWhile p).length]? = some c) : p c = false := by
  induction r with
  | nil => simp at h
  | cons d r ih =>
    by_cases hd : p d
    · simp [hd] at h; exact ih h
    · simp [hd] at h; subst h; simpa using hd

theorem matchAt_segRe (a : Char) (b : List Char) (c : Char) (r : List Char) :
    matchAt (segRe a) ⟨b, c :: r⟩ = if c = a then some ((⟨b, c :: r⟩ : Pos).adv (segLen a r + 1)) else none := by
  unfold matchAt segRe
  rw [run]
  unfold Re.chr
  rw [run_cls_cons]
  by_cases hc : c = a
  · subst hc
    have e : (fun d => d == c || d == 'S') = inSeg c := rfl
    simp only [beq_self_eq_true, if_true, List.flatMap_cons, List.flatMap_nil, List.append_nil]
    unfold Re.opt
    rw [run.eq_4, run.eq_3, run_star_cls, List.flatMap_map, e]
    have := head?_downTo c ⟨c :: b, r⟩ (r.takeWhile (inSeg c)).length
    unfold Re.chr at this
    simp only [run] at this ⊢
    rw [this, Pos.adv_succ]
    have h1 : r[(r.takeWhile (inSeg c)).length]? ≠ some c := by
      intro h; have := takeWhile_stop' _ _ _ h; simp [inSeg] at this
    simp [coreLen, h1, segLen]
  · simp [hc]

/-- the segments whose letter is selected, found by a scan from left to right: `(start, stop, letter)`; the first
argument counts letters still to be skipped, the second is the position -/
def segs (sel : Char → Bool) : Nat → Nat → List Char → List (Nat × Nat × Char)
  | _, _, [] => []
  | k + 1, o, _ :: r => segs sel k (o + 1) r
  | 0, o, c :: r =>
    if sel c then (o, o + 1 + segLen c r, c) :: segs sel (segLen c r) (o + 1) r else segs sel 0 (o + 1) r

theorem segs_skip (sel : Char → Bool) (k o : Nat) (w : List Char) (hk : k ≤ w.length) :
    segs sel k o w = segs sel 0 (o + k) (w.drop k) := by
  induction k generalizing o w with
  | zero => simp
  | succ k ih =>
    cases w with
    | nil => simp at hk
    | cons c r => rw [segs, ih _ _ (by simpa using hk)]; simp; congr 1; omega

theorem segLen_le (a : Char) (r : List Char) : segLen a r ≤ r.length :=
  le_trans (coreLen_le _ _ _) (List.takeWhile_prefix _).length_le

theorem findGo_segs (re : Re) (sel : Char → Bool)
    (hre : ∀ b c r, matchAt re ⟨b, c :: r⟩ = if sel c then some ((⟨b, c :: r⟩ : Pos).adv (segLen c r + 1)) else none)
    (n : Nat) (b w : List Char) (hn : w.length ≤ n) :
    (findGo re n ⟨b, w⟩).map (fun m => (m.1.before.length, m.2.before.length, m.1.rest.head?)) =
      (segs sel 0 b.length w).map (fun t => (t.1, t.2.1, some t.2.2)) := by
  induction n generalizing b w with
  | zero =>
    have : w = [] := by simpa using hn
    subst this; simp [findGo, segs]
  | succ n ih =>
    cases w with
    | nil => simp [findGo, segs]
    | cons c r =>
      simp only [List.length_cons] at hn
      by_cases hc : sel c
      · have hl := segLen_le c r
        have hadv : (⟨b, c :: r⟩ : Pos).adv (segLen c r + 1) = ⟨(r.take (segLen c r)).reverse ++ c :: b, r.drop (segLen c r)⟩ := by
          simp [Pos.adv]
        rw [findGo, segs]
        simp only [hre, hc, if_true, hadv]
        rw [if_pos (by simp)]
        simp only [List.map_cons, List.length_append, List.length_reverse, List.length_take, List.length_cons,
          List.head?_cons]
        rw [ih _ _ (by simp; omega), segs_skip sel _ _ _ hl]
        simp only [List.length_append, List.length_reverse, List.length_take, List.length_cons, min_eq_left hl]
        rw [show segLen c r + (b.length + 1) = b.length + 1 + segLen c r from Nat.add_comm _ _]
      · rw [findGo, segs]
        simp only [hre, hc, Bool.false_eq_true, if_false]
        rw [ih _ _ (by omega)]; rfl

theorem matchAt_both (b : List Char) (c : Char) (r : List Char) :
    matchAt (.alt (segRe 'A') (segRe 'D')) ⟨b, c :: r⟩ =
      if (c == 'A' || c == 'D') then some ((⟨b, c :: r⟩ : Pos).adv (segLen c r + 1)) else none := by
  have hA := matchAt_segRe 'A' b c r
  have hD := matchAt_segRe 'D' b c r
  unfold matchAt at hA hD ⊢
  rw [run, List.head?_append, hA, hD]
  by_cases h1 : c = 'A'
  · subst h1; simp
  · by_cases h2 : c = 'D'
    · subst h2; simp
    · simp [h1, h2]

theorem matchAt_one (a : Char) (b : List Char) (c : Char) (r : List Char) :
    matchAt (segRe a) ⟨b, c :: r⟩ =
      if (c == a) then some ((⟨b, c :: r⟩ : Pos).adv (segLen c r + 1)) else none := by
  rw [matchAt_segRe]
  by_cases h : c = a
  · subst h; simp
  · simp [h]

/-- what one segment is, inside the letters `w` starting at position `o` -/
structure SegOk (sel : Char → Bool) (o : Nat) (w : List Char) (t : Nat × Nat × Char) : Prop where
  lo : o ≤ t.1
  lt : t.1 < t.2.1
  hi : t.2.1 ≤ o + w.length
  sel : sel t.2.2 = true
  first : w[t.1 - o]? = some t.2.2
  last : w[t.2.1 - 1 - o]? = some t.2.2
  inside : ∀ i, t.1 ≤ i → i < t.2.1 → ∃ c, w[i - o]? = some c ∧ inSeg t.2.2 c = true

theorem SegOk.cons {sel : Char → Bool} {o : Nat} {w : List Char} {t} (h : SegOk sel (o + 1) w t) (c : Char) :
    SegOk sel o (c :: w) t := by
  have := h.lo
  have h2 := h.lt
  refine ⟨by omega, h.lt, by have := h.hi; simp; omega, h.sel, ?_, ?_, ?_⟩
  · rw [show t.1 - o = (t.1 - (o + 1)) + 1 by omega]; simpa using h.first
  · rw [show t.2.1 - 1 - o = (t.2.1 - 1 - (o + 1)) + 1 by omega]; simpa using h.last
  · intro i h3 h4
    rw [show i - o = (i - (o + 1)) + 1 by omega]; simpa using h.inside i h3 h4

theorem takeWhile_getElem? {α : Type} (p : α → Bool) (r : List α) (i : Nat) (h : i < (r.takeWhile p).length) :
    ∃ c, r[i]? = some c ∧ p c = true := by
  have e := (List.takeWhile_prefix p (l := r))
  have h2 : (r.takeWhile p)[i]? = r[i]? := by
    obtain ⟨t, ht⟩ := e
    conv_rhs => rw [← ht]
    rw [List.getElem?_append_left h]
  refine ⟨(r.takeWhile p)[i], ?_, ?_⟩
  · rw [← h2]; simp [h]
  · exact Re.mem_takeWhile (List.getElem_mem h)

theorem segs_ok (sel : Char → Bool) (w : List Char) : ∀ k o, ∀ t ∈ segs sel k o w, SegOk sel o w t ∧ o + k ≤ t.1 := by
  induction w with
  | nil => intro k o t ht; cases k <;> simp [segs] at ht
  | cons c r ih =>
    intro k o t ht
    cases k with
    | succ k =>
      rw [segs] at ht
      obtain ⟨h1, h2⟩ := ih _ _ t ht
      exact ⟨h1.cons c, by omega⟩
    | zero =>
      rw [segs] at ht
      split at ht
      · rename_i hc
        rcases List.mem_cons.mp ht with h | h
        · subst h
          have hl := segLen_le c r
          refine ⟨⟨by simp, by simp; omega, by simp; omega, hc, by simp, ?_, ?_⟩, by simp⟩
          · simp only
            by_cases h0 : segLen c r = 0
            · simp [h0]
            · have := coreLen_last c r (r.takeWhile (inSeg c)).length (by unfold segLen at h0; omega)
              rw [show o + 1 + segLen c r - 1 - o = (segLen c r - 1) + 1 by omega, List.getElem?_cons_succ]
              exact this
          · intro i h1 h2
            simp only at h1 h2 ⊢
            by_cases h0 : i = o
            · subst h0; exact ⟨c, by simp, by simp [inSeg]⟩
            · rw [show i - o = (i - o - 1) + 1 by omega, List.getElem?_cons_succ]
              apply takeWhile_getElem?
              have := coreLen_le c r (r.takeWhile (inSeg c)).length
              unfold segLen at h2; omega
        · obtain ⟨h1, h2⟩ := ih _ _ t h
          exact ⟨h1.cons c, by omega⟩
      · obtain ⟨h1, h2⟩ := ih _ _ t ht
        exact ⟨h1.cons c, by omega⟩

theorem segs_pairwise (sel : Char → Bool) (w : List Char) : ∀ k o, (segs sel k o w).Pairwise (fun s t => s.2.1 ≤ t.1) := by
  induction w with
  | nil => intro k o; cases k <;> simp [segs]
  | cons c r ih =>
    intro k o
    cases k with
    | succ k => rw [segs]; exact ih _ _
    | zero =>
      rw [segs]
      split
      · rw [List.pairwise_cons]
        refine ⟨?_, ih _ _⟩
        intro t ht
        have := (segs_ok sel r _ _ t ht).2
        simpa using this
      · exact ih _ _

theorem segs_cover (sel : Char → Bool) (w : List Char) :
    ∀ (k o i : Nat) (c : Char), k ≤ i → w[i]? = some c → sel c = true → sel 'S' = false →
      ∃ t ∈ segs sel k o w, t.1 ≤ o + i ∧ o + i < t.2.1 := by
  induction w with
  | nil => intro k o i c _ h; simp at h
  | cons d r ih =>
    intro k o i c hk hi hc hS
    cases k with
    | succ k =>
      rw [segs]
      obtain ⟨j, rfl⟩ : ∃ j, i = j + 1 := ⟨i - 1, by omega⟩
      obtain ⟨t, h1, h2, h3⟩ := ih k (o + 1) j c (by omega) (by simpa using hi) hc hS
      exact ⟨t, h1, by omega, by omega⟩
    | zero =>
      rw [segs]
      cases i with
      | zero =>
        simp only [List.getElem?_cons_zero, Option.some.injEq] at hi
        subst hi
        rw [if_pos hc]
        exact ⟨_, List.mem_cons_self, by simp, by simp; omega⟩
      | succ j =>
        have hj : r[j]? = some c := by simpa using hi
        split
        · rename_i hd
          by_cases hlt : j < segLen d r
          · exact ⟨_, List.mem_cons_self, by simp, by simp; omega⟩
          · obtain ⟨t, h1, h2, h3⟩ := ih (segLen d r) (o + 1) j c (by omega) hj hc hS
            exact ⟨t, List.mem_cons_of_mem _ h1, by omega, by omega⟩
        · obtain ⟨t, h1, h2, h3⟩ := ih 0 (o + 1) j c (by omega) hj hc hS
          exact ⟨t, h1, by omega, by omega⟩

/-- after skipping `k` letters and the `S` letters, the next letter is not `a` -/
theorem segs_next (sel : Char → Bool) (hS : sel 'S' = false) (a : Char) (w : List Char) :
    ∀ k o, (∀ i, k ≤ i → (∀ j, k ≤ j → j < i → w[j]? = some 'S') → w[i]? ≠ some a) →
      ∀ t ∈ (segs sel k o w).head?, sel a = true → (∀ c ∈ w, c = 'S' ∨ sel c = true) → t.2.2 ≠ a := by
  induction w with
  | nil => intro k o _ t ht; cases k <;> simp [segs] at ht
  | cons d r ih =>
    intro k o h t ht ha hw
    have hr : ∀ c ∈ r, c = 'S' ∨ sel c = true := fun c hc => hw c (List.mem_cons_of_mem _ hc)
    cases k with
    | succ k =>
      rw [segs] at ht
      refine ih k (o + 1) ?_ t ht ha hr
      intro i h1 h2
      have := h (i + 1) (by omega) (fun j h3 h4 => by
        obtain ⟨l, rfl⟩ : ∃ l, j = l + 1 := ⟨j - 1, by omega⟩
        simpa using h2 l (by omega) (by omega))
      simpa using this
    | zero =>
      rw [segs] at ht
      split at ht
      · simp only [List.head?_cons, Option.mem_some_iff] at ht
        subst ht
        have := h 0 (by omega) (fun j h3 h4 => by omega)
        simpa using this
      · rename_i hd
        have hdS : d = 'S' := by
          rcases hw d List.mem_cons_self with h | h
          · exact h
          · exact absurd h hd
        refine ih 0 (o + 1) ?_ t ht ha hr
        intro i h1 h2
        have := h (i + 1) (by omega) (fun j h3 h4 => by
          cases j with
          | zero => simp [hdS]
          | succ l => simpa using h2 l (by omega) (by omega))
        simpa using this

theorem segs_chain (sel : Char → Bool) (hS : sel 'S' = false) (w : List Char) :
    ∀ k o, (∀ c ∈ w, c = 'S' ∨ sel c = true) → (segs sel k o w).IsChain (fun s t => s.2.2 ≠ t.2.2) := by
  induction w with
  | nil => intro k o _; cases k <;> simp [segs]
  | cons d r ih =>
    intro k o hw
    have hr : ∀ c ∈ r, c = 'S' ∨ sel c = true := fun c hc => hw c (List.mem_cons_of_mem _ hc)
    cases k with
    | succ k => rw [segs]; exact ih _ _ hr
    | zero =>
      rw [segs]
      split
      · rename_i hd
        rw [List.isChain_cons]
        refine ⟨?_, ih _ _ hr⟩
        intro t ht
        refine (segs_next sel hS d r (segLen d r) (o + 1) ?_ t ht hd hr).symm
        intro i h1 h2 h3
        by_cases hlt : i < (r.takeWhile (inSeg d)).length
        · exact coreLen_max d r _ i h1 hlt h3
        · -- the run of `d`/`S` letters was left before `i`
          have hne : (r.takeWhile (inSeg d)).length ≤ i := by omega
          have hstop : r[(r.takeWhile (inSeg d)).length]? = none ∨
              ∃ c, r[(r.takeWhile (inSeg d)).length]? = some c ∧ inSeg d c = false := by
            cases h : r[(r.takeWhile (inSeg d)).length]? with
            | none => exact Or.inl rfl
            | some c => exact Or.inr ⟨c, rfl, takeWhile_stop' _ _ _ h⟩
          rcases Nat.lt_or_ge (r.takeWhile (inSeg d)).length i with hgt | hge
          · have := h2 _ (coreLen_le _ _ _) hgt
            rcases hstop with h | ⟨c, h, hc⟩
            · rw [h] at this; cases this
            · rw [h] at this; injection this with this; subst this; simp [inSeg] at hc
          · have e : (r.takeWhile (inSeg d)).length = i := by omega
            rw [e] at hstop
            rcases hstop with h | ⟨c, h, hc⟩
            · rw [h] at h3; cases h3
            · rw [h] at h3; injection h3 with h3; subst h3; simp [inSeg] at hc
      · exact ih _ _ hr

/-- selecting one letter is filtering the segments of all letters -/
theorem segs_filter (sel : Char → Bool) (a : Char) (ha : sel a = true) (haS : a ≠ 'S') (w : List Char) :
    (∀ k o, segs (· == a) k o w = (segs sel k o w).filter (fun t => t.2.2 == a)) ∧
    (∀ k o, (∀ i, i < k → w[i]? ≠ some a) →
      segs (· == a) 0 o w = (segs sel k o w).filter (fun t => t.2.2 == a)) := by
  induction w with
  | nil => exact ⟨fun k o => by cases k <;> rfl, fun k o _ => by cases k <;> rfl⟩
  | cons d r ih =>
    have first : ∀ o, segs (· == a) 0 o (d :: r) = (segs sel 0 o (d :: r)).filter (fun t => t.2.2 == a) := by
      intro o
      rw [segs, segs]
      by_cases hd : d = a
      · subst hd
        rw [if_pos (by simp), if_pos ha, List.filter_cons_of_pos (by simp), ih.1]
      · rw [if_neg (by simpa using hd)]
        split
        · rw [List.filter_cons_of_neg (by simpa using hd)]
          apply ih.2
          intro i hi h
          obtain ⟨c, h1, h2⟩ := takeWhile_getElem? (inSeg d) r i (lt_of_lt_of_le hi (coreLen_le _ _ _))
          rw [h1] at h; injection h with h; subst h
          simp only [inSeg, Bool.or_eq_true, beq_iff_eq] at h2
          rcases h2 with h2 | h2
          · exact hd h2.symm
          · exact haS h2
        · exact ih.1 0 (o + 1)
    refine ⟨?_, ?_⟩
    · intro k o
      cases k with
      | zero => exact first o
      | succ k => rw [segs, segs]; exact ih.1 _ _
    · intro k o h
      cases k with
      | zero => exact first o
      | succ k =>
        have hd : d ≠ a := by have := h 0 (by omega); simpa using this
        rw [segs, segs, if_neg (by simpa using hd)]
        exact ih.2 k (o + 1) (fun i hi => by have := h (i + 1) (by omega); simpa using this)

end TEflow.Mathext
