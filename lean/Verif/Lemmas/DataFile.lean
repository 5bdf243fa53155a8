import Verif.Model.Dataset
import Verif.Lemmas.CompoundText

/-! # Lemmas about data lines -/

set_option linter.unusedSimpArgs false
set_option linter.unusedSectionVars false

namespace TEflow.Re

theorem lazyStarN_cls (p : Char → Bool) (r b : List Char) (m : Nat) (hm : r.length ≤ m) :
    lazyStarN (run (.cls p)) m ⟨b, r⟩ = (List.range ((r.takeWhile p).length + 1)).map (Pos.adv ⟨b, r⟩) := by
  induction r generalizing b m with
  | nil => cases m <;> simp [lazyStarN, run_cls_nil]
  | cons c r ih =>
    cases m with
    | zero => simp at hm
    | succ m =>
      rw [lazyStarN, run_cls_cons]
      by_cases h : p c
      · simp only [h, if_true, List.takeWhile_cons_of_pos, List.length_cons]
        have : ([⟨c :: b, r⟩] : List Pos).filter (fun t => decide (t.rest.length < r.length + 1)) = [⟨c :: b, r⟩] := by simp
        simp only [this, List.flatMap_cons, List.flatMap_nil, List.append_nil]
        rw [ih _ _ (by simpa using hm), List.range_succ_eq_map (n := (r.takeWhile p).length + 1)]
        simp [Pos.adv_succ]
      · simp [h, List.takeWhile_cons_of_neg]

theorem run_lazyPlus_cls (p : Char → Bool) (s : Pos) :
    run (lazyPlus (.cls p)) s = (List.range (s.rest.takeWhile p).length).map (fun k => s.adv (k + 1)) := by
  obtain ⟨b, r⟩ := s
  cases r with
  | nil => simp [lazyPlus, run]
  | cons c r =>
    simp only [lazyPlus, run]
    by_cases h : p c
    · simp only [h, if_true, List.flatMap_cons, List.flatMap_nil, List.append_nil]
      have := lazyStarN_cls p r (c :: b) r.length (le_refl _)
      simp only [run] at this
      rw [this]
      simp [List.takeWhile_cons_of_pos, h, Pos.adv_succ]
    · simp [h, List.takeWhile_cons_of_neg]

end TEflow.Re

namespace TEflow.Loader
open Re

/-- the tail ` *(?=#|$)` of the row pattern: matches when only blanks stand before `#` or the end -/
theorem tailRe_head (s : Pos) (bl X : List Char) (hr : s.rest = bl ++ X) (hbl : ∀ c ∈ bl, (c == ' ') = true)
    (hX : X = [] ∨ X.head? = some '#') :
    (run (.seq (.star (.cls (· == ' '))) (.ahead (.alt (.chr '#') .eos))) s).head? = some (s.adv bl.length) := by
  have hs : Stop (· == ' ') X := by
    intro c hc
    rcases hX with rfl | h
    · simp at hc
    · rw [h] at hc; simp at hc; subst hc; decide
  have htw := (takeWhile_stop (· == ' ') bl X hbl hs).1
  refine head?_seq (t := s.adv bl.length) ?_ ?_
  · have := head?_star_cls (· == ' ') s
    rw [this, hr, htw]
  · have hrest : (s.adv bl.length).rest = X := by rw [Pos.adv_before_rest, hr]; exact List.drop_left
    generalize s.adv bl.length = t at *
    obtain ⟨tb, tr⟩ := t
    simp only at hrest; subst hrest
    rcases hX with rfl | h
    · simp [run, chr]
    · cases tr with
      | nil => simp at h
      | cons c X => simp at h; subst h; simp [run, chr]

/-- … and fails when something else comes first -/
theorem tailRe_none (s : Pos) (bl : List Char) (c : Char) (X : List Char) (hr : s.rest = bl ++ c :: X)
    (hbl : ∀ c ∈ bl, (c == ' ') = true) (hc1 : c ≠ ' ') (hc2 : c ≠ '#') (hc3 : (c :: X) ≠ ['\n']) :
    run (.seq (.star (.cls (· == ' '))) (.ahead (.alt (.chr '#') .eos))) s = [] := by
  have hs : Stop (· == ' ') (c :: X) := by intro d hd; simp at hd; subst hd; simpa using hc1
  have htw := (takeWhile_stop (· == ' ') bl (c :: X) hbl hs).1
  have := run_star_cls (· == ' ') s
  rw [hr, htw] at this
  rw [run, this, List.flatMap_map]
  rw [List.flatMap_eq_nil_iff]
  intro k hk
  rw [mem_downTo] at hk
  have hrest : (s.adv k).rest = bl.drop k ++ c :: X := by
    simp [hr, List.drop_append, Nat.sub_eq_zero_of_le hk]
  generalize s.adv k = t at *
  obtain ⟨tb, tr⟩ := t
  simp only at hrest; subst hrest
  cases hd : bl.drop k with
  | nil => simp [run, chr, hc2, hc3]; intro h1 h2; exact hc3 (by rw [h1, h2])
  | cons d bl' =>
    have hd' : d = ' ' := by
      have := hbl d (List.mem_of_mem_drop (hd ▸ List.mem_cons_self)); simpa using this
    subst hd'
    simp [run, chr]

/-- a text with a last character that is not a blank: blanks, then a non-blank -/
theorem split_first_nonblank (l : List Char) (hne : l ≠ []) (hlast : l.getLast? ≠ some ' ') :
    ∃ bl c Y, l = bl ++ c :: Y ∧ (∀ d ∈ bl, (d == ' ') = true) ∧ c ≠ ' ' := by
  induction l with
  | nil => exact absurd rfl hne
  | cons a l ih =>
    by_cases ha : a = ' '
    · cases l with
      | nil => subst ha; simp at hlast
      | cons b l =>
        obtain ⟨bl, c, Y, h1, h2, h3⟩ := ih (by simp) (by rw [List.getLast?_cons_cons] at hlast; exact hlast)
        exact ⟨a :: bl, c, Y, by rw [h1]; rfl, by intro d hd; rcases List.mem_cons.mp hd with rfl | hd; · simp [ha]
                                                  · exact h2 d hd, h3⟩
    · exact ⟨[], a, l, rfl, by simp, ha⟩

theorem runParts3 (r1 r2 r3 : Re) (s : Pos) :
    (runParts [r1, r2, r3] s).head? =
      (run r1 s).findSome? (fun t => (run r2 t).findSome? (fun u => (run r3 u).head?.map (fun v => [t, u, v]))) := by
  simp only [runParts, List.head?_flatMap, List.head?_map]
  congr 1
  funext t
  induction run r2 t with
  | nil => rfl
  | cons u l ih =>
    rw [List.findSome?_cons, List.findSome?_cons]
    cases h : run r3 u with
    | nil => simpa [h] using ih
    | cons v l' => simp

theorem run_bos_star (p : Char → Bool) (L : List Char) :
    run (.seq .bos (.star (.cls p))) ⟨[], L⟩ = (downTo (L.takeWhile p).length).map (Pos.adv ⟨[], L⟩) := by
  have := run_star_cls p ⟨[], L⟩
  rw [run, show run .bos ⟨[], L⟩ = [⟨[], L⟩] from rfl]
  simpa using this

/-- a line with data: blanks, the data text, blanks, then nothing or a comment -/
theorem rowline_data (pre core post X : List Char) (hpre : ∀ c ∈ pre, c = ' ') (hpost : ∀ c ∈ post, c = ' ')
    (hne : core ≠ []) (hhash : '#' ∉ core) (hfirst : core.head? ≠ some ' ') (hlast : core.getLast? ≠ some ' ')
    (hX : X = [] ∨ X.head? = some '#') (hnl : (pre ++ core ++ post ++ X).getLast? ≠ some '\n') :
    rowline (pre ++ core ++ post ++ X) = some core := by
  have hpreb : ∀ c ∈ pre, (c == ' ') = true := fun c hc => by simpa using hpre c hc
  have hpostb : ∀ c ∈ post, (c == ' ') = true := fun c hc => by simpa using hpost c hc
  obtain ⟨c0, core', rfl⟩ : ∃ c0 core', core = c0 :: core' := by
    cases core with
    | nil => exact absurd rfl hne
    | cons a l => exact ⟨a, l, rfl⟩
  set core := c0 :: core' with hcore
  set L := pre ++ core ++ post ++ X with hL
  have hL' : L = pre ++ (core ++ post ++ X) := by simp [hL]
  have htw : L.takeWhile (· == ' ') = pre := by
    rw [hL']
    refine (takeWhile_stop _ pre _ hpreb ?_).1
    intro c hc; simp [hcore] at hc; subst hc
    simpa [hcore] using hfirst
  have hrest : ((⟨[], L⟩ : Pos).adv pre.length).rest = core ++ post ++ X := by
    simp only [Pos.adv_before_rest, hL']; exact List.drop_left
  have htw2 : (core ++ post ++ X).takeWhile (· != '#') = core ++ post := by
    refine (takeWhile_stop (· != '#') (core ++ post) X ?_ ?_).1
    · intro c hc
      rcases List.mem_append.mp hc with hc | hc
      · simpa using fun h : c = '#' => hhash (h ▸ hc)
      · rw [hpost c hc]; decide
    · intro c hc
      rcases hX with rfl | h
      · simp at hc
      · rw [h] at hc; simp at hc; subst hc; decide
  -- the match
  have key : (runParts rowParts ⟨[], L⟩).head? =
      some [(⟨[], L⟩ : Pos).adv pre.length, ((⟨[], L⟩ : Pos).adv pre.length).adv core.length,
        (((⟨[], L⟩ : Pos).adv pre.length).adv core.length).adv post.length] := by
    rw [rowParts, runParts3, run_bos_star, htw, downTo_head, List.map_cons, List.findSome?_cons]
    set t := (⟨[], L⟩ : Pos).adv pre.length with ht
    have hin : (run (lazyPlus (.cls (· != '#'))) t).findSome? (fun u =>
        (run (.seq (.star (.cls (· == ' '))) (.ahead (.alt (.chr '#') .eos))) u).head?.map (fun v => [t, u, v])) =
        some [t, t.adv core.length, (t.adv core.length).adv post.length] := by
      rw [run_lazyPlus_cls, hrest, htw2, List.findSome?_eq_some_iff]
      refine ⟨(List.range core'.length).map (fun k => t.adv (k + 1)), t.adv core.length,
        ((List.range post.length).map (fun k => core'.length + 1 + k)).map (fun k => t.adv (k + 1)), ?_, ?_, ?_⟩
      · rw [show t.adv core.length :: ((List.range post.length).map (fun k => core'.length + 1 + k)).map (fun k => t.adv (k + 1)) =
            (core'.length :: (List.range post.length).map (fun k => core'.length + 1 + k)).map (fun k => t.adv (k + 1)) from by
              simp [hcore], ← List.map_append]
        congr 1
        rw [List.length_append, hcore, List.length_cons, List.range_add, List.range_succ]
        simp
      · have hr : (t.adv core.length).rest = post ++ X := by
          rw [Pos.adv_before_rest, hrest, List.append_assoc]; exact List.drop_left
        rw [tailRe_head _ post X hr hpostb hX]; rfl
      · intro u hu
        obtain ⟨m, hm, rfl⟩ := List.mem_map.mp hu
        rw [List.mem_range] at hm
        have hlen : m + 1 < core.length := by simp [hcore]; omega
        have hdne : core.drop (m + 1) ≠ [] := by
          intro h; have := congrArg List.length h; simp at this; omega
        have hdl : (core.drop (m + 1)).getLast? ≠ some ' ' := by
          rw [List.getLast?_drop]; simp [Nat.not_le.mpr hlen, hlast]
        obtain ⟨bl, c, Y, h1, h2, h3⟩ := split_first_nonblank _ hdne hdl
        have hr : (t.adv (m + 1)).rest = bl ++ c :: (Y ++ post ++ X) := by
          rw [Pos.adv_before_rest, hrest, List.append_assoc, List.drop_append_of_le_length (by omega), h1]; simp
        have hcm : c ∈ core := List.mem_of_mem_drop (i := m + 1) (by rw [h1]; simp)
        rw [tailRe_none _ bl c _ hr h2 h3 (fun h => hhash (h ▸ hcm))]
        · rfl
        · intro h
          have hsuf : ['\n'] <:+ L := by
            rw [← h]
            refine ⟨pre ++ core.take (m + 1) ++ bl, ?_⟩
            rw [hL]
            conv_rhs => rw [← List.take_append_drop (m + 1) core, h1]
            simp
          obtain ⟨z, hz⟩ := hsuf
          apply hnl; rw [← hz]; simp
    rw [hin]
  rw [rowline, key]
  simp only
  have := between_adv ((⟨[], L⟩ : Pos).adv pre.length) 0 core.length (Nat.zero_le _) (by rw [hrest]; simp)
  rw [Pos.adv_zero, Nat.zero_add, hrest] at this
  rw [this, List.drop_zero, List.append_assoc, List.take_left]

/-- a line of blanks followed by a comment gives one blank -/
theorem rowline_blank_comment (pre X : List Char) (hpre : ∀ c ∈ pre, c = ' ') (hne : pre ≠ []) (hX : X.head? = some '#') :
    rowline (pre ++ X) = some [' '] := by
  have hpreb : ∀ c ∈ pre, (c == ' ') = true := fun c hc => by simpa using hpre c hc
  set L := pre ++ X with hL
  have htw : L.takeWhile (· == ' ') = pre := by
    refine (takeWhile_stop _ pre X hpreb ?_).1
    intro c hc; rw [hX] at hc; simp at hc; subst hc; decide
  obtain ⟨n, hn⟩ : ∃ n, pre.length = n + 1 := by
    cases pre with
    | nil => exact absurd rfl hne
    | cons a l => exact ⟨l.length, rfl⟩
  have hd : ∀ k ≤ pre.length, ((⟨[], L⟩ : Pos).adv k).rest = pre.drop k ++ X := by
    intro k hk; rw [Pos.adv_before_rest, hL, List.drop_append_of_le_length hk]
  have hlast : pre.drop n = [' '] := by
    have h1 : (pre.drop n).length = 1 := by simp; omega
    match hp : pre.drop n, h1 with
    | [a], _ =>
      have : a ∈ pre := List.mem_of_mem_drop (i := n) (by rw [hp]; simp)
      rw [hpre a this]
  have h0 : run (lazyPlus (.cls (· != '#'))) ((⟨[], L⟩ : Pos).adv (n + 1)) = [] := by
    rw [run_lazyPlus_cls, hd _ (by omega), ← hn, List.drop_length, List.nil_append]
    cases X with
    | nil => simp at hX
    | cons c X => simp at hX; subst hX; simp
  have h1 : run (lazyPlus (.cls (· != '#'))) ((⟨[], L⟩ : Pos).adv n) = [((⟨[], L⟩ : Pos).adv n).adv 1] := by
    rw [run_lazyPlus_cls, hd _ (by omega), hlast]
    cases X with
    | nil => simp at hX
    | cons c X => simp at hX; subst hX; simp
  have h2 := tailRe_head (((⟨[], L⟩ : Pos).adv n).adv 1) [] X (by
    rw [Pos.adv_before_rest, hd _ (by omega), hlast]; rfl) (by simp) (Or.inr hX)
  rw [rowline, rowParts, runParts3, run_bos_star, htw, hn, downTo_succ, List.map_cons, List.findSome?_cons, h0, downTo_head,
    List.map_cons]
  simp only [List.findSome?_nil, List.findSome?_cons, h1, h2, Option.map_some]
  have := between_adv ((⟨[], L⟩ : Pos).adv n) 0 1 (Nat.zero_le _) (by rw [hd _ (by omega), hlast]; simp)
  rw [Pos.adv_zero, Nat.zero_add, hd _ (by omega), hlast] at this
  rw [this]; rfl

/-- a line that is empty or starts with a comment has no row -/
theorem rowline_none (X : List Char) (hX : X = [] ∨ X.head? = some '#') : rowline X = none := by
  have htw : X.takeWhile (· == ' ') = [] := by
    cases X with
    | nil => rfl
    | cons c X => simp at hX; subst hX; simp
  have htw2 : X.takeWhile (· != '#') = [] := by
    cases X with
    | nil => rfl
    | cons c X => simp at hX; subst hX; simp
  rw [rowline, rowParts, runParts3, run_bos_star, htw]
  simp [downTo, run_lazyPlus_cls, htw2]

end TEflow.Loader
