import Verif.Lemmas.Re

/-! # More lemmas about the regular expression model: words, blanks and single characters, with explicit positions -/

namespace TEflow.Re

/-! ### Soundness: what a match consumed -/

theorem mem_star_cls {p : Char → Bool} {s t : Pos} (h : t ∈ run (.star (.cls p)) s) :
    ∃ x, s.rest = x ++ t.rest ∧ ∀ c ∈ x, p c = true := by
  rw [run_star_cls] at h
  obtain ⟨k, hk, rfl⟩ := List.mem_map.mp h
  rw [mem_downTo] at hk
  refine ⟨s.rest.take k, (List.take_append_drop k s.rest).symm, fun c hc => ?_⟩
  have : s.rest.take k = (s.rest.takeWhile p).take k := by
    conv_lhs => rw [← List.takeWhile_append_dropWhile (p := p) (l := s.rest)]
    rw [List.take_append_of_le_length hk]
  rw [this] at hc
  exact mem_takeWhile (List.mem_of_mem_take hc)

/-- an optional greedy word is tried in the same order as a greedy repetition -/
theorem run_opt_plus_cls (p : Char → Bool) (s : Pos) : run (opt (plus (.cls p))) s = run (.star (.cls p)) s := by
  obtain ⟨b, r⟩ := s
  rw [run_star_cls]
  unfold opt
  rw [run, run]
  cases r with
  | nil => rfl
  | cons c r =>
    rw [run_plus_cls]
    by_cases hc : p c
    · simp only [hc, if_true, List.takeWhile_cons_of_pos, List.length_cons]
      rw [downTo, List.map_append, List.map_map]
      simp [Function.comp_def]
    · simp [hc, downTo]

theorem mem_chr {c : Char} {s t : Pos} (h : t ∈ run (chr c) s) : s.rest = c :: t.rest := by
  obtain ⟨b, r⟩ := s
  unfold chr at h
  cases r with
  | nil => rw [run_cls_nil] at h; cases h
  | cons d r =>
    rw [run_cls_cons] at h
    by_cases hd : (d == c) = true
    · rw [if_pos hd] at h
      simp only [List.mem_cons, List.not_mem_nil, or_false] at h
      subst h
      rw [beq_iff_eq.mp hd]
    · rw [if_neg hd] at h
      cases h

theorem mem_runParts_cons {r : Re} {rs : List Re} {s : Pos} {l : List Pos} (h : l ∈ runParts (r :: rs) s) :
    ∃ t ts, l = t :: ts ∧ t ∈ run r s ∧ ts ∈ runParts rs t := by
  rw [runParts, List.mem_flatMap] at h
  obtain ⟨t, ht, h⟩ := h
  obtain ⟨ts, hts, rfl⟩ := List.mem_map.mp h
  exact ⟨t, ts, rfl, ht, hts⟩

theorem mem_runParts_nil {s : Pos} {l : List Pos} (h : l ∈ runParts [] s) : l = [] := by
  rw [runParts] at h
  simpa using h

theorem between_of {s t : Pos} {x : List Char} (h : s.rest = x ++ t.rest) : between s t = x := by
  unfold between
  rw [h, List.length_append, Nat.add_sub_cancel, List.take_left]

theorem head?_mem {α : Type} {l : List α} {a : α} (h : l.head? = some a) : a ∈ l := List.mem_of_mem_head? h

/-! ### First ways to match -/

theorem adv_append (b x r : List Char) : (⟨b, x ++ r⟩ : Pos).adv x.length = ⟨x.reverse ++ b, r⟩ := by
  simp [Pos.adv]

theorem takeWhile_append_stop {p : Char → Bool} {x r : List Char} (hx : ∀ c ∈ x, p c = true) (hr : ∀ c ∈ r.head?, p c = false) :
    (x ++ r).takeWhile p = x := by
  induction x with
  | nil =>
    cases r with
    | nil => rfl
    | cons c r => simp [List.takeWhile_cons, hr c rfl]
  | cons a x ih =>
    rw [List.cons_append, List.takeWhile_cons, if_pos (hx a List.mem_cons_self), ih (fun c hc => hx c (List.mem_cons_of_mem _ hc))]

theorem head?_star {p : Char → Bool} {b x r : List Char} (hx : ∀ c ∈ x, p c = true) (hr : ∀ c ∈ r.head?, p c = false) :
    (run (.star (.cls p)) ⟨b, x ++ r⟩).head? = some ⟨x.reverse ++ b, r⟩ := by
  rw [head?_star_cls]
  show some ((⟨b, x ++ r⟩ : Pos).adv ((x ++ r).takeWhile p).length) = _
  rw [takeWhile_append_stop hx hr, adv_append]

theorem head?_word {p : Char → Bool} {b x r : List Char} (hx : ∀ c ∈ x, p c = true) (hr : ∀ c ∈ r.head?, p c = false) :
    (run (opt (plus (.cls p))) ⟨b, x ++ r⟩).head? = some ⟨x.reverse ++ b, r⟩ := by
  rw [run_opt_plus_cls, head?_star hx hr]

theorem head?_chr (c : Char) (b r : List Char) : (run (chr c) ⟨b, c :: r⟩).head? = some ⟨c :: b, r⟩ := by
  unfold chr
  rw [run_cls_cons, if_pos (beq_self_eq_true c)]
  rfl

theorem head?_runParts_nil (s : Pos) : (runParts [] s).head? = some [] := rfl

/-- the first way to match when some earlier alternatives of the first part lead nowhere -/
theorem head?_runParts_skip {r : Re} {rs : List Re} {s t : Pos} {ts : List Pos} {l1 l2 : List Pos} (h : run r s = l1 ++ t :: l2)
    (h1 : ∀ u ∈ l1, runParts rs u = []) (h2 : (runParts rs t).head? = some ts) : (runParts (r :: rs) s).head? = some (t :: ts) := by
  rw [runParts, h, List.flatMap_append, List.flatMap_cons]
  have : l1.flatMap (fun u => (runParts rs u).map (u :: ·)) = [] := by
    rw [List.flatMap_eq_nil_iff]
    intro u hu
    rw [h1 u hu]
    rfl
  rw [this, List.nil_append, List.head?_append, List.head?_map, h2]
  rfl

theorem downTo_split {m n : Nat} (h : m ≤ n) : ∃ l, downTo n = l ++ downTo m ∧ ∀ k ∈ l, m < k := by
  induction n with
  | zero => exact ⟨[], by rw [Nat.le_zero.mp h]; rfl, fun _ hk => by cases hk⟩
  | succ n ih =>
    by_cases hm : m = n + 1
    · exact ⟨[], by rw [hm]; rfl, fun _ hk => by cases hk⟩
    · obtain ⟨l, hl, hk⟩ := ih (by omega)
      refine ⟨(n + 1) :: l, by rw [downTo_succ, hl]; rfl, fun k hk' => ?_⟩
      rcases List.mem_cons.mp hk' with rfl | hk'
      · omega
      · exact hk k hk'

/-- a greedy word, blanks and a character that does not occur again: the word ends where it should, even when nothing separates
it from the character -/
theorem head?_word_then {p q : Char → Bool} {c : Char} {rs : List Re} {b w s r : List Char} {ts : List Pos}
    (hw : ∀ d ∈ w, p d = true) (hs : ∀ d ∈ s, q d = true) (hqc : q c = false) (hpq : ∀ d, q d = true → p d = false) (hc : c ∉ r)
    (h : (runParts rs ⟨c :: (s.reverse ++ (w.reverse ++ b)), r⟩).head? = some ts) :
    (runParts (opt (plus (.cls p)) :: .star (.cls q) :: chr c :: rs) ⟨b, w ++ (s ++ c :: r)⟩).head? =
      some (⟨w.reverse ++ b, s ++ c :: r⟩ :: ⟨s.reverse ++ (w.reverse ++ b), c :: r⟩ :: ⟨c :: (s.reverse ++ (w.reverse ++ b)), r⟩ :: ts) := by
  set P : Pos := ⟨b, w ++ (s ++ c :: r)⟩ with hP
  have hlen : w.length ≤ (P.rest.takeWhile p).length := by
    rw [hP]
    show w.length ≤ ((w ++ (s ++ c :: r)).takeWhile p).length
    rw [List.takeWhile_append_of_pos hw, List.length_append]
    omega
  obtain ⟨l, hl, hk⟩ := downTo_split hlen
  have hrun : run (opt (plus (.cls p))) P = l.map P.adv ++ P.adv w.length :: (downTo w.length).tail.map P.adv := by
    rw [run_opt_plus_cls, run_star_cls, hl, List.map_append]
    conv_lhs => rw [downTo_head w.length]
    rfl
  have hadv : P.adv w.length = ⟨w.reverse ++ b, s ++ c :: r⟩ := adv_append _ _ _
  have tail : (runParts (.star (.cls q) :: chr c :: rs) ⟨w.reverse ++ b, s ++ c :: r⟩).head? =
      some (⟨s.reverse ++ (w.reverse ++ b), c :: r⟩ :: ⟨c :: (s.reverse ++ (w.reverse ++ b)), r⟩ :: ts) :=
    head?_runParts (head?_star hs (fun d hd => by cases hd; exact hqc)) (head?_runParts (head?_chr c _ _) h)
  by_cases hsn : s = []
  · subst hsn
    have hskip : ∀ u ∈ l.map P.adv, runParts (.star (.cls q) :: chr c :: rs) u = [] := by
      intro u hu
      obtain ⟨k, hkl, rfl⟩ := List.mem_map.mp hu
      have hgt := hk k hkl
      by_contra hne
      obtain ⟨bs, hbs⟩ := List.exists_mem_of_ne_nil _ hne
      obtain ⟨t1, ts1, _, ht1, hts1⟩ := mem_runParts_cons hbs
      obtain ⟨t2, ts2, _, ht2, _⟩ := mem_runParts_cons hts1
      obtain ⟨x, hx, _⟩ := mem_star_cls ht1
      rw [mem_chr ht2] at hx
      have : c ∈ (P.adv k).rest := by rw [hx]; simp
      rw [Pos.adv_before_rest, hP] at this
      apply hc
      show c ∈ r
      have hd : (w ++ ([] ++ c :: r)).drop k = r.drop (k - w.length - 1) := by
        rw [List.drop_append, List.drop_of_length_le (by omega : w.length ≤ k), List.nil_append, List.nil_append,
          show k - w.length = (k - w.length - 1) + 1 by omega, List.drop_succ_cons]
        rfl
      simp only at this
      rw [hd] at this
      exact List.mem_of_mem_drop this
    have := head?_runParts_skip hrun hskip (hadv ▸ tail)
    rw [this, hadv]
    rfl
  · have : l = [] := by
      have heq : (P.rest.takeWhile p).length = w.length := by
        rw [hP]
        show ((w ++ (s ++ c :: r)).takeWhile p).length = w.length
        rw [takeWhile_append_stop hw]
        intro d hd
        cases s with
        | nil => exact absurd rfl hsn
        | cons a s => cases hd; exact hpq _ (hs _ List.mem_cons_self)
      rcases l with _ | ⟨k, l⟩
      · rfl
      · exfalso
        have h1 := hk k List.mem_cons_self
        have h2 : k ∈ downTo (P.rest.takeWhile p).length := by rw [hl]; exact List.mem_append_left _ List.mem_cons_self
        rw [mem_downTo] at h2
        omega
    have := head?_runParts_skip hrun (by rw [this]; intro u hu; cases hu) (hadv ▸ tail)
    rw [this, hadv]

end TEflow.Re
