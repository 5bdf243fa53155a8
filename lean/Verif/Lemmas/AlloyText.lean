import Verif.Spec.AlloyText
import Verif.Lemmas.CompoundText
import Verif.Lemmas.Re2
import Verif.Lemmas.Dict

/-! # Lemmas: the groups of an alloy formula -/

set_option linter.unusedSimpArgs false
set_option linter.unusedSectionVars false

namespace TEflow.Loader

open PyDict Re

/-! ### The search for a group -/

theorem mem_lazyStarN {p : Char → Bool} : ∀ (n : Nat) (s t : Pos), t ∈ lazyStarN (run (.cls p)) n s →
    ∃ x, s.rest = x ++ t.rest := by
  intro n
  induction n with
  | zero => intro s t h; simp [lazyStarN] at h; subst h; exact ⟨[], rfl⟩
  | succ n ih =>
    intro s t h
    rw [lazyStarN, List.mem_cons] at h
    rcases h with rfl | h
    · exact ⟨[], rfl⟩
    · rw [List.mem_flatMap] at h
      obtain ⟨u, hu, ht⟩ := h
      obtain ⟨x, hx⟩ := ih u t ht
      rw [List.mem_filter] at hu
      obtain ⟨b, r⟩ := s
      cases r with
      | nil => simp [run] at hu
      | cons c r =>
        have hu1 := hu.1
        rw [run_cls_cons] at hu1
        split at hu1
        · simp at hu1; subst hu1; exact ⟨c :: x, by simp at hx; simp [hx]⟩
        · simp at hu1

theorem mem_lazyPlus {p : Char → Bool} {s t : Pos} (h : t ∈ run (lazyPlus (.cls p)) s) : ∃ x, s.rest = x ++ t.rest := by
  unfold lazyPlus at h
  rw [run, List.mem_flatMap] at h
  obtain ⟨u, hu, ht⟩ := h
  rw [run] at ht
  obtain ⟨x, hx⟩ := mem_lazyStarN _ _ _ ht
  obtain ⟨b, r⟩ := s
  cases r with
  | nil => simp [run] at hu
  | cons c r =>
    rw [run_cls_cons] at hu
    split at hu
    · simp at hu; subst hu; exact ⟨c :: x, by simp at hx; simp [hx]⟩
    · simp at hu

/-- what a match of the group pattern looks like -/
theorem mem_groupParts {s : Pos} {bs : List Pos} (h : bs ∈ runParts groupParts s) :
    ∃ b0 b1 b2 g, bs = [b0, b1, b2] ∧ s.rest = '(' :: b0.rest ∧ b0.rest = g ++ b1.rest ∧ b1.rest = ')' :: b2.rest := by
  unfold groupParts at h
  obtain ⟨b0, l0, rfl, h0, h0'⟩ := mem_runParts_cons h
  obtain ⟨b1, l1, rfl, h1, h1'⟩ := mem_runParts_cons h0'
  obtain ⟨b2, l2, rfl, h2, h2'⟩ := mem_runParts_cons h1'
  have := mem_runParts_nil h2'
  subst this
  obtain ⟨g, hg⟩ := mem_lazyPlus h1
  exact ⟨b0, b1, b2, g, rfl, mem_chr h0, hg, mem_chr h2⟩

theorem lazy_then_paren (b g r : List Char) (hg : ')' ∉ g) (hn : '\n' ∉ g) : ∀ (n : Nat), g.length ≤ n →
    ((lazyStarN (run anyChar) n ⟨b, g ++ ')' :: r⟩).flatMap (fun t => (runParts [Re.chr ')'] t).map (t :: ·))).head? =
      some [⟨g.reverse ++ b, ')' :: r⟩, ⟨')' :: (g.reverse ++ b), r⟩] := by
  have hpar : ∀ b r, runParts [Re.chr ')'] ⟨b, ')' :: r⟩ = [[⟨')' :: b, r⟩]] := by
    intro b r; simp [runParts, Re.chr, run]
  induction g generalizing b with
  | nil =>
    intro n _
    cases n with
    | zero => simp [lazyStarN, hpar]
    | succ n => rw [lazyStarN, List.flatMap_cons]; simp only [List.nil_append, hpar]; simp
  | cons c g ih =>
    intro n hn'
    cases n with
    | zero => simp at hn'
    | succ n =>
      have hc : c ≠ ')' := fun h => hg (by simp [h])
      have hcn : c ≠ '\n' := fun h => hn (by simp [h])
      have hno : runParts [Re.chr ')'] ⟨b, c :: g ++ ')' :: r⟩ = [] := by
        simp [runParts, Re.chr, run, hc]
      have hstep : run anyChar ⟨b, c :: g ++ ')' :: r⟩ = [⟨c :: b, g ++ ')' :: r⟩] := by
        unfold anyChar
        rw [List.cons_append, run_cls_cons]
        simp [hcn]
      rw [lazyStarN, List.flatMap_cons, hno, hstep]
      have := ih (c :: b) (fun h => hg (by simp [h])) (fun h => hn (by simp [h])) n (by simpa using hn')
      simp only [List.map_nil, List.nil_append]
      have hf : List.filter (fun t : Pos => decide (t.rest.length < (Pos.mk b (c :: g ++ ')' :: r)).rest.length))
          [⟨c :: b, g ++ ')' :: r⟩] = [⟨c :: b, g ++ ')' :: r⟩] := by
        simp
      rw [hf]
      simp only [List.flatMap_cons, List.flatMap_nil, List.append_nil]
      rw [this]
      simp

/-- a parenthesis with a closed group -/
theorem head?_groupParts (b g r : List Char) (h0 : g ≠ []) (hg : ')' ∉ g) (hn : '\n' ∉ g) :
    (runParts groupParts ⟨b, '(' :: g ++ ')' :: r⟩).head? =
      some [⟨'(' :: b, g ++ ')' :: r⟩, ⟨g.reverse ++ '(' :: b, ')' :: r⟩, ⟨')' :: (g.reverse ++ '(' :: b), r⟩] := by
  obtain ⟨c, g', rfl⟩ : ∃ c g', g = c :: g' := by
    cases g with
    | nil => exact absurd rfl h0
    | cons c g' => exact ⟨c, g', rfl⟩
  have hcn : c ≠ '\n' := fun h => hn (by simp [h])
  refine head?_runParts (head?_chr _ _ _) ?_
  have hstep : run anyChar ⟨'(' :: b, c :: g' ++ ')' :: r⟩ = [⟨c :: '(' :: b, g' ++ ')' :: r⟩] := by
    unfold anyChar; rw [List.cons_append, run_cls_cons]; simp [hcn]
  have := lazy_then_paren (c :: '(' :: b) g' r (fun h => hg (by simp [h])) (fun h => hn (by simp [h]))
    (g' ++ ')' :: r).length (by simp)
  have e1 : runParts [lazyPlus anyChar, Re.chr ')'] ⟨'(' :: b, c :: g' ++ ')' :: r⟩ =
      (lazyStarN (run anyChar) (g' ++ ')' :: r).length ⟨c :: '(' :: b, g' ++ ')' :: r⟩).flatMap
        (fun t => (runParts [Re.chr ')'] t).map (t :: ·)) := by
    rw [runParts, lazyPlus, run, hstep]
    simp [run]
  rw [List.cons_append] at e1 ⊢
  rw [e1, this]
  simp

theorem runParts_group_other (b : List Char) (c : Char) (r : List Char) (h : c ≠ '(') :
    runParts groupParts ⟨b, c :: r⟩ = [] := by
  simp [groupParts, runParts, Re.chr, run, h]

/-- the first match found lies inside the text and is a match there -/
theorem findParts_head (rs : List Re) : ∀ (n : Nat) (s : Pos) (m : Pos × List Pos),
    (findPartsGo rs n s).head? = some m → ∃ pre, s.rest = pre ++ m.1.rest ∧ (runParts rs m.1).head? = some m.2 := by
  intro n
  induction n with
  | zero => intro s m h; simp [findPartsGo] at h
  | succ n ih =>
    intro s m h
    rw [findPartsGo] at h
    obtain ⟨b, r⟩ := s
    cases r with
    | nil => simp at h
    | cons c cs =>
      simp only at h
      cases hr : (runParts rs ⟨b, c :: cs⟩).head? with
      | none =>
        simp only [hr] at h
        obtain ⟨pre, h1, h2⟩ := ih _ _ h
        exact ⟨c :: pre, by simp at h1; simp [h1], h2⟩
      | some bs =>
        simp only [hr] at h
        split at h
        · simp at h; subst h; exact ⟨[], rfl, hr⟩
        · obtain ⟨pre, h1, h2⟩ := ih _ _ h
          exact ⟨c :: pre, by simp at h1; simp [h1], h2⟩

/-- a group found is a part of the text -/
theorem searchGroup_sound {sf w g : List Char} (h : searchGroup sf = some (w, g)) :
    w = '(' :: g ++ [')'] ∧ ∃ pre post, sf = pre ++ w ++ post := by
  unfold searchGroup at h
  rw [Option.map_eq_some_iff] at h
  obtain ⟨m, hm, he⟩ := h
  obtain ⟨pre, h1, h2⟩ := findParts_head _ _ _ _ hm
  obtain ⟨b0, b1, b2, g', hbs, e0, e1, e2⟩ := mem_groupParts (head?_mem h2)
  rw [hbs] at he
  simp only at he
  have hw : between m.1 b2 = '(' :: g' ++ [')'] := between_of (by rw [e0, e1, e2]; simp)
  have hg : between b0 b1 = g' := between_of e1
  rw [hw, hg] at he
  injection he with he1 he2
  subst he2
  refine ⟨he1.symm, pre, b2.rest, ?_⟩
  have : sf = pre ++ m.1.rest := h1
  rw [this, e0, e1, e2, ← he1]; simp

/-- without an opening parenthesis nothing is found -/
theorem searchGroup_none {sf : List Char} (h : '(' ∉ sf) : searchGroup sf = none := by
  cases hs : searchGroup sf with
  | none => rfl
  | some m =>
    obtain ⟨w, g⟩ := m
    obtain ⟨h1, pre, post, h2⟩ := searchGroup_sound hs
    exact absurd (by rw [h2, h1]; simp) h

/-- the first closed group is found -/
theorem searchGroup_first (pre g post : List Char) (hp : '(' ∉ pre) (h0 : g ≠ []) (hg : ')' ∉ g) (hn : '\n' ∉ g) :
    searchGroup (pre ++ ('(' :: g ++ [')']) ++ post) = some ('(' :: g ++ [')'], g) := by
  have key : ∀ (n : Nat) (b : List Char), pre.length < n →
      (findPartsGo groupParts n ⟨b, pre ++ ('(' :: g ++ [')']) ++ post⟩).head? =
        some (⟨pre.reverse ++ b, '(' :: g ++ ')' :: post⟩, [⟨'(' :: (pre.reverse ++ b), g ++ ')' :: post⟩,
          ⟨g.reverse ++ '(' :: (pre.reverse ++ b), ')' :: post⟩, ⟨')' :: (g.reverse ++ '(' :: (pre.reverse ++ b)), post⟩]) := by
    induction pre with
    | nil =>
      intro n b hlt
      cases n with
      | zero => simp at hlt
      | succ n =>
        have := head?_groupParts b g post h0 hg hn
        rw [findPartsGo]
        simp only [List.nil_append, List.append_assoc, List.cons_append, List.singleton_append, List.reverse_nil] at this ⊢
        simp only [this]
        simp only [List.getLast?_cons_cons, List.getLast?_singleton, Option.getD_some, List.length_cons, List.length_append]
        rw [if_pos (by omega)]
        rfl
    | cons c pre ih =>
      intro n b hlt
      cases n with
      | zero => simp at hlt
      | succ n =>
        have hc : c ≠ '(' := fun h => hp (by simp [h])
        have := ih (fun h => hp (by simp [h])) n (c :: b) (by simpa using hlt)
        rw [findPartsGo]
        simp only [List.cons_append, runParts_group_other b c _ hc, List.head?_nil]
        simp only [List.cons_append] at this
        rw [this]
        simp
  unfold searchGroup
  rw [key _ [] (by simp)]
  simp only [Option.map_some, List.append_nil]
  rw [between_of (x := '(' :: g ++ [')']) (by simp), between_of (x := g) (by simp)]

/-! ### Replacing -/

theorem replaceGo_count_le (old new : List Char) (c : Char) (hnew : c ∉ new) : ∀ (n : Nat) (t : List Char),
    (replaceGo old new n t).count c ≤ t.count c := by
  intro n
  induction n with
  | zero => intro t; simp [replaceGo]
  | succ n ih =>
    intro t
    cases t with
    | nil => simp [replaceGo]
    | cons a t =>
      rw [replaceGo]
      split
      · rename_i hp
        rw [List.count_append, List.count_eq_zero.mpr hnew, Nat.zero_add]
        refine (ih _).trans ?_
        exact (List.drop_sublist _ _).count_le _
      · rw [List.count_cons, List.count_cons]
        have := ih t
        omega

theorem replaceGo_count_lt (old new : List Char) (c : Char) (hnew : c ∉ new) (hc : c ∈ old) : ∀ (pre post : List Char) (n : Nat),
    (pre ++ old ++ post).length ≤ n → (replaceGo old new n (pre ++ old ++ post)).count c < (pre ++ old ++ post).count c := by
  have drop_lt : ∀ (t : List Char), old.isPrefixOf t = true → (t.drop old.length).count c < t.count c := by
    intro t ht
    obtain ⟨r, rfl⟩ := List.isPrefixOf_iff_prefix.mp ht
    rw [List.drop_left, List.count_append]
    have := List.count_pos_iff.mpr hc
    omega
  intro pre
  induction pre with
  | nil =>
    intro post n hn
    cases n with
    | zero =>
      simp at hn; simp [hn.1] at hc
    | succ n =>
      obtain ⟨a, o, rfl⟩ : ∃ a o, old = a :: o := by
        cases old with
        | nil => simp at hc
        | cons a o => exact ⟨a, o, rfl⟩
      have hp : (a :: o).isPrefixOf ([] ++ (a :: o) ++ post) = true := List.isPrefixOf_iff_prefix.mpr ⟨post, by simp⟩
      have := drop_lt _ hp
      simp only [List.nil_append, List.cons_append] at hp this ⊢
      rw [replaceGo, if_pos hp, List.count_append, List.count_eq_zero.mpr hnew, Nat.zero_add]
      exact lt_of_le_of_lt (replaceGo_count_le _ _ _ hnew _ _) this
  | cons a pre ih =>
    intro post n hn
    cases n with
    | zero => simp at hn
    | succ n =>
      simp only [List.cons_append]
      rw [replaceGo]
      split
      · rename_i hp
        rw [List.count_append, List.count_eq_zero.mpr hnew, Nat.zero_add]
        exact lt_of_le_of_lt (replaceGo_count_le _ _ _ hnew _ _) (drop_lt _ hp)
      · rw [List.count_cons, List.count_cons]
        have := ih post n (by simpa using hn)
        omega

theorem label_no_paren (i : Nat) : '(' ∉ groupLabel i ∧ ')' ∉ groupLabel i := by
  unfold groupLabel alloySite
  constructor <;> · rw [List.mem_append]; rintro (h | h)
                    · revert h; decide
                    · rw [List.mem_replicate] at h; exact absurd h.2 (by decide)

/-- the loop ends because no group is left, and it has collected one text per round -/
theorem pullGroups_ends : ∀ (n idx : Nat) (sf : List Char) (acc : List (List Char)), sf.count '(' ≤ n →
    searchGroup (pullGroups n idx sf acc).1 = none ∧
    ∃ gs, (pullGroups n idx sf acc).2 = acc ++ gs ∧ gs.length ≤ sf.count '(' := by
  intro n
  induction n with
  | zero =>
    intro idx sf acc h
    have : sf.count '(' = 0 := by omega
    exact ⟨searchGroup_none (List.count_eq_zero.mp this), [], by simp [pullGroups], by simp⟩
  | succ n ih =>
    intro idx sf acc h
    rw [pullGroups]
    cases hs : searchGroup sf with
    | none => exact ⟨hs, [], by simp, by simp⟩
    | some m =>
      obtain ⟨w, g⟩ := m
      obtain ⟨h1, pre, post, h2⟩ := searchGroup_sound hs
      have hlt : (replaceAll w (groupLabel idx) sf).count '(' < sf.count '(' := by
        unfold replaceAll
        rw [h2]
        exact replaceGo_count_lt _ _ _ (label_no_paren idx).1 (by rw [h1]; simp) pre post _ le_rfl
      obtain ⟨i1, gs, i2, i3⟩ := ih (idx + 1) (replaceAll w (groupLabel idx) sf) (acc ++ [g]) (by omega)
      exact ⟨i1, g :: gs, by simp only [i2]; simp, by simp only [List.length_cons]; omega⟩

/-! ### Texts made of pieces -/

/-- a text without parentheses, or a group in parentheses -/
inductive Piece where
  | chunk (t : List Char)
  | grp (g : List Char)

def Piece.text : Piece → List Char
  | .chunk t => t
  | .grp g => '(' :: g ++ [')']

def Piece.Ok : Piece → Prop
  | .chunk t => '(' ∉ t ∧ ')' ∉ t
  | .grp g => g ≠ [] ∧ '(' ∉ g ∧ ')' ∉ g ∧ '\n' ∉ g

def Piece.group? : Piece → Option (List Char)
  | .chunk _ => none
  | .grp g => some g

/-- replace the groups by chunks -/
def Piece.subst (f : List Char → Piece) : Piece → Piece
  | .chunk t => .chunk t
  | .grp g => f g

def piecesText (ps : List Piece) : List Char := (ps.map Piece.text).flatten

theorem replaceGo_skip (old new : List Char) (o : List Char) (hold : old = '(' :: o) (t rest : List Char) (ht : '(' ∉ t) :
    ∀ n, replaceGo old new (t.length + n) (t ++ rest) = t ++ replaceGo old new n rest := by
  intro n
  induction t with
  | nil => simp
  | cons c t ih =>
    have hc : c ≠ '(' := fun h => ht (by simp [h])
    rw [List.length_cons, show t.length + 1 + n = (t.length + n) + 1 by omega, List.cons_append, replaceGo, if_neg, ih]
    · rfl
    · exact fun h => ht (by simp [h])
    · subst hold; simp [List.isPrefixOf, Ne.symm hc]

theorem group_prefix (g h rest : List Char) (hg : ')' ∉ g) (hh : ')' ∉ h) :
    ('(' :: g ++ [')']).isPrefixOf ('(' :: h ++ ')' :: rest) = decide (g = h) := by
  induction g generalizing h with
  | nil =>
    cases h with
    | nil => simp [List.isPrefixOf]
    | cons c h =>
      have : c ≠ ')' := fun e => hh (by simp [e])
      simp [List.isPrefixOf, Ne.symm this]
  | cons a g ih =>
    have ha : a ≠ ')' := fun e => hg (by simp [e])
    cases h with
    | nil => simp [List.isPrefixOf, ha]
    | cons c h =>
      have := ih h (fun e => hg (by simp [e])) (fun e => hh (by simp [e]))
      simp only [List.cons_append, List.isPrefixOf, beq_self_eq_true, Bool.true_and] at this ⊢
      rw [this]
      by_cases e : a = c <;> simp [e]

theorem replaceGo_pieces (g new : List Char) (hg : ')' ∉ g) (hg' : '(' ∉ g) (ps : List Piece) (hps : ∀ p ∈ ps, p.Ok) :
    ∀ n, (piecesText ps).length ≤ n → replaceGo ('(' :: g ++ [')']) new n (piecesText ps) =
      piecesText (ps.map (Piece.subst (fun h => if h = g then .chunk new else .grp h))) := by
  have hskip := replaceGo_skip ('(' :: g ++ [')']) new (g ++ [')']) rfl
  induction ps with
  | nil => intro n _; cases n <;> simp [piecesText, replaceGo]
  | cons p ps ih =>
    intro n hn
    have ih := ih (fun p hp => hps p (by simp [hp]))
    have hp := hps p (by simp)
    rw [List.map_cons]
    simp only [piecesText, List.map_cons, List.flatten_cons] at hn ih ⊢
    rw [List.length_append] at hn
    cases p with
    | chunk t =>
      obtain ⟨m, rfl⟩ := Nat.exists_eq_add_of_le (show t.length ≤ n by simp [Piece.text] at hn; omega)
      simp only [Piece.text, Piece.subst] at hn ⊢
      rw [hskip t _ hp.1, ih m (by omega)]
    | grp h =>
      obtain ⟨h1, h2, h3, h4⟩ := hp
      simp only [Piece.text, Piece.subst] at hn ⊢
      obtain ⟨m, rfl⟩ : ∃ m, n = m + 1 := ⟨n - 1, by simp at hn; omega⟩
      have hpre := group_prefix g h ((ps.map Piece.text).flatten) hg h3
      simp only [List.append_assoc, List.cons_append, List.singleton_append, List.nil_append] at hpre ⊢
      rw [replaceGo]
      by_cases e : g = h
      · subst e
        rw [if_pos (by simp only [List.cons_append, hpre]; simp)]
        simp only [if_true, Piece.text]
        have : ('(' :: (g ++ ')' :: (ps.map Piece.text).flatten)).drop ('(' :: (g ++ [')'])).length =
            (ps.map Piece.text).flatten := by
          have := List.drop_left (l₁ := '(' :: (g ++ [')'])) (l₂ := (ps.map Piece.text).flatten)
          simpa using this
        simp only [List.cons_append, this]
        have ih' := ih m (by simp only [List.length_cons, List.length_append] at hn; omega)
        simp only [List.cons_append] at ih'
        rw [ih']
      · rw [if_neg (by simp only [List.cons_append, hpre]; simp [e])]
        simp only [Ne.symm e, if_false, Piece.text, List.cons_append, List.append_assoc, List.nil_append]
        obtain ⟨k, rfl⟩ := Nat.exists_eq_add_of_le (show (h ++ [')']).length ≤ m by simp at hn ⊢; omega)
        have hs := hskip (h ++ [')']) ((ps.map Piece.text).flatten) (by simp [h2]) k
        simp only [List.append_assoc, List.cons_append, List.nil_append] at hs
        rw [hs]
        have ih' := ih k (by simp only [List.length_cons, List.length_append] at hn ⊢; omega)
        simp only [List.cons_append] at ih'
        rw [ih']

theorem replaceAll_pieces (g new : List Char) (hg : ')' ∉ g) (hg' : '(' ∉ g) (ps : List Piece) (hps : ∀ p ∈ ps, p.Ok) :
    replaceAll ('(' :: g ++ [')']) new (piecesText ps) =
      piecesText (ps.map (Piece.subst (fun h => if h = g then .chunk new else .grp h))) :=
  replaceGo_pieces g new hg hg' ps hps _ le_rfl

/-- the groups of the pieces, in order -/
def groupsOf (ps : List Piece) : List (List Char) := ps.filterMap Piece.group?

theorem groupsOf_chunk (t : List Char) (ps : List Piece) : groupsOf (.chunk t :: ps) = groupsOf ps := rfl
theorem groupsOf_grp (g : List Char) (ps : List Piece) : groupsOf (.grp g :: ps) = g :: groupsOf ps := rfl

theorem groupsOf_nil {ps : List Piece} (hps : ∀ p ∈ ps, p.Ok) (h : groupsOf ps = []) :
    '(' ∉ piecesText ps ∧ ∀ f, ps.map (Piece.subst f) = ps := by
  induction ps with
  | nil => simp [piecesText]
  | cons p ps ih =>
    cases p with
    | grp g => simp [groupsOf_grp] at h
    | chunk t =>
      obtain ⟨h1, h2⟩ := ih (fun p hp => hps p (by simp [hp])) (by rw [groupsOf_chunk] at h; exact h)
      have := hps _ List.mem_cons_self
      refine ⟨?_, fun f => by simp only [List.map_cons, h2 f, Piece.subst]⟩
      simp only [piecesText, List.map_cons, List.flatten_cons, List.mem_append, Piece.text]
      rintro (h | h)
      · exact this.1 h
      · exact h1 h

theorem groupsOf_cons {ps : List Piece} {g : List Char} {gs : List (List Char)} (hps : ∀ p ∈ ps, p.Ok) (h : groupsOf ps = g :: gs) :
    ∃ pre post, piecesText ps = pre ++ ('(' :: g ++ [')']) ++ post ∧ '(' ∉ pre ∧ Piece.Ok (.grp g) := by
  induction ps with
  | nil => simp [groupsOf] at h
  | cons p ps ih =>
    cases p with
    | grp g' =>
      have : g' = g ∧ groupsOf ps = gs := by simpa [groupsOf_grp] using h
      obtain ⟨rfl, _⟩ := this
      refine ⟨[], piecesText ps, ?_, by simp, hps _ List.mem_cons_self⟩
      simp [piecesText, Piece.text]
    | chunk t =>
      obtain ⟨pre, post, h1, h2, h3⟩ := ih (fun p hp => hps p (by simp [hp])) (by rw [groupsOf_chunk] at h; exact h)
      have := hps _ List.mem_cons_self
      refine ⟨t ++ pre, post, ?_, ?_, h3⟩
      · simp only [piecesText, List.map_cons, List.flatten_cons, Piece.text] at h1 ⊢
        rw [h1]; simp
      · rw [List.mem_append]; rintro (h | h)
        · exact this.1 h
        · exact h2 h

theorem groupsOf_subst (ps : List Piece) (g new : List Char) :
    groupsOf (ps.map (Piece.subst (fun h => if h = g then .chunk new else .grp h))) =
      (groupsOf ps).filter (fun h => !(h == g)) := by
  induction ps with
  | nil => rfl
  | cons p ps ih =>
    cases p with
    | chunk t => simpa only [List.map_cons, Piece.subst, groupsOf_chunk] using ih
    | grp h =>
      by_cases e : h = g
      · simp only [List.map_cons, Piece.subst, groupsOf_grp, e, if_true, groupsOf_chunk, ih]; simp
      · simp only [List.map_cons, Piece.subst, groupsOf_grp, e, if_false, ih]; simp [e]

/-- the loop on a text made of pieces: each group becomes the label of its first appearance -/
theorem pullGroups_pieces : ∀ (n idx : Nat) (ps : List Piece) (acc : List (List Char)), (∀ p ∈ ps, p.Ok) →
    (groupsOf ps).length ≤ n →
    pullGroups n idx (piecesText ps) acc =
      (piecesText (ps.map (Piece.subst (fun g => .chunk (groupLabel (idx + (groupsOf ps).eraseDups.idxOf g))))),
        acc ++ (groupsOf ps).eraseDups) := by
  intro n
  induction n with
  | zero =>
    intro idx ps acc hps hn
    have : groupsOf ps = [] := List.length_eq_zero_iff.mp (by omega)
    rw [(groupsOf_nil hps this).2, this]
    simp [pullGroups]
  | succ n ih =>
    intro idx ps acc hps hn
    rw [pullGroups]
    cases hg : groupsOf ps with
    | nil =>
      rw [searchGroup_none (groupsOf_nil hps hg).1, (groupsOf_nil hps hg).2]
      simp
    | cons g gs =>
      obtain ⟨pre, post, h1, h2, h3, h4, h5, h6⟩ := groupsOf_cons hps hg
      rw [h1, searchGroup_first pre g post h2 h3 h5 h6, ← h1]
      simp only
      rw [replaceAll_pieces g _ h5 h4 ps hps]
      set f : List Char → Piece := fun h => if h = g then .chunk (groupLabel idx) else .grp h with hf
      have hgs : groupsOf (ps.map (Piece.subst f)) = gs.filter (fun h => !(h == g)) := by
        rw [groupsOf_subst, hg]; simp
      rw [ih (idx + 1) (ps.map (Piece.subst f)) (acc ++ [g])]
      · rw [hgs, List.eraseDups_cons]
        congr 1
        · congr 1
          rw [List.map_map]
          apply List.map_congr_left
          intro p hp
          cases p with
          | chunk t => rfl
          | grp h =>
            simp only [Function.comp, Piece.subst, hf]
            by_cases e : h = g
            · subst e; simp [List.idxOf_cons]
            · have e' : (g == h) = false := by simp [Ne.symm e]
              simp only [e, if_false, Piece.subst, List.idxOf_cons, e', cond_false]
              congr 2; omega
        · simp
      · intro p hp
        obtain ⟨q, hq, rfl⟩ := List.mem_map.mp hp
        cases q with
        | chunk t => exact hps _ hq
        | grp h =>
          simp only [Piece.subst, hf]
          split
          · exact label_no_paren idx
          · exact hps _ hq
      · rw [hgs]
        have := List.length_filter_le (fun h => !(h == g)) gs
        rw [hg] at hn; simp at hn; omega

theorem count_pieces (ps : List Piece) (hps : ∀ p ∈ ps, p.Ok) : (piecesText ps).count '(' = (groupsOf ps).length := by
  induction ps with
  | nil => rfl
  | cons p ps ih =>
    have ih := ih (fun p hp => hps p (by simp [hp]))
    have hp := hps _ List.mem_cons_self
    simp only [piecesText, List.map_cons, List.flatten_cons, List.count_append] at ih ⊢
    rw [ih]
    cases p with
    | chunk t => rw [groupsOf_chunk]; simp [Piece.text, List.count_eq_zero.mpr hp.1]
    | grp g =>
      rw [groupsOf_grp]
      simp [Piece.text, List.count_append, List.count_eq_zero.mpr hp.2.1]
      omega

/-! ### The OriginLab substitution -/

/-- without a minus in front of a parenthesis nothing is substituted -/
theorem originSubGo_id : ∀ (n : Nat) (b t : List Char), (∀ pre post, t ≠ pre ++ '-' :: '(' :: post) →
    originSubGo n ⟨b, t⟩ = t := by
  intro n
  induction n with
  | zero => intros; rfl
  | succ n ih =>
    intro b t h
    cases t with
    | nil => rfl
    | cons c t =>
      rw [originSubGo]
      have hnil : (runParts originParts ⟨b, c :: t⟩).head? = none := by
        rw [List.head?_eq_none_iff]
        rw [List.eq_nil_iff_forall_not_mem]
        intro bs hbs
        unfold originParts at hbs
        obtain ⟨b0, l0, rfl, h0, h0'⟩ := mem_runParts_cons hbs
        obtain ⟨_, _, _, _, _, e0, _, _⟩ := mem_groupParts h0'
        have := mem_chr h0
        simp only at this
        exact h [] _ (by rw [this, e0]; rfl)
      simp only [hnil]
      rw [ih]
      intro pre post hp
      exact h (c :: pre) post (by rw [hp]; rfl)

theorem originSub_id {t : List Char} (h : ∀ pre post, t ≠ pre ++ '-' :: '(' :: post) : originSub t = t :=
  originSubGo_id _ _ _ h

end TEflow.Loader
