import Verif.Props.CfgText
import Verif.Props.KappaCfgSub

/-! # C122: reading the substituted configuration -/

set_option linter.unusedSimpArgs false
set_option linter.unusedVariables false

namespace TEflow.CfgSubst

open Re PyDict CfgText
open KappaCfg (Blank Spaces Word Plain NumText Mine VarLine NewText Rewritten IsFirst Parted SectLine VarsHeader substitutedTags)

/-- the options of the section with the variables after the fit: the fitted ones are constants now, the others as before, the order is
kept -/
def fixedOpts (vars opts : List (List Char × List Char)) : List (List Char × List Char) :=
  opts.map fun o => (o.1, (get? vars o.1).getD o.2)

/-- the configuration after the fit: the section `variables` has the fitted values, the other sections are as before -/
def fixedCfg (vars : List (List Char × List Char)) (cfg : List (List Char × List (List Char × List Char))) :
    List (List Char × List (List Char × List Char)) :=
  cfg.map fun s => if s.1 = "variables".toList then (s.1, fixedOpts vars s.2) else s

/-! ## Lines -/

theorem eq_not_space : pySpace '=' = false := by decide

/-- cutting at the first occurrence of a character -/
theorem cut_eq {α : Type} {c : α} : ∀ {x x' y y' : List α}, c ∉ x → c ∉ x' → x ++ c :: y = x' ++ c :: y' → x = x' ∧ y = y'
  | [], [], _, _, _, _, h => ⟨rfl, by simpa using h⟩
  | [], a :: x', _, _, _, hx', h => by
    simp only [List.nil_append, List.cons_append, List.cons.injEq] at h
    exact absurd (by rw [h.1]; exact List.mem_cons_self) hx'
  | a :: x, [], _, _, hx, _, h => by
    simp only [List.nil_append, List.cons_append, List.cons.injEq] at h
    exact absurd (by rw [h.1]; exact List.mem_cons_self) hx
  | a :: x, a' :: x', _, _, hx, hx', h => by
    simp only [List.cons_append, List.cons.injEq] at h
    obtain ⟨h1, h2⟩ := cut_eq (fun h => hx (List.mem_cons_of_mem _ h)) (fun h => hx' (List.mem_cons_of_mem _ h)) h.2
    exact ⟨by rw [h.1, h1], h2⟩

theorem Word.trim {w : List Char} (h : Word w) : Trim w :=
  ⟨fun d hd => h d (List.mem_of_head? hd), fun d hd => h d (List.mem_of_getLast? hd)⟩

theorem noeq_front {i t u : List Char} (hi : Blank i) (ht : '=' ∉ t) (hu : Blank u) : '=' ∉ i ++ (t ++ u) := by
  intro hm
  simp only [List.mem_append] at hm
  rcases hm with h | h | h
  · exact absurd (hi _ h) (by decide)
  · exact ht h
  · exact absurd (hu _ h) (by decide)

theorem head_of {t u : List Char} (hne : t ≠ []) (ht : Trim t) : ∀ d, (t ++ u).head? = some d → pySpace d = false := by
  intro d hd
  apply ht.1
  cases t with
  | nil => exact absurd rfl hne
  | cons a t => exact hd

/-- blanks, name and blanks in front of the `=` are determined by the line -/
theorem front_eq {i t u y i' t' u' y' : List Char} (hi : Blank i) (hi' : Blank i') (hu : Blank u) (hu' : Blank u') (hn : t ≠ []) (hn' : t' ≠ [])
    (ht : Trim t) (ht' : Trim t') (he : '=' ∉ t) (he' : '=' ∉ t') (e : i ++ (t ++ (u ++ '=' :: y)) = i' ++ (t' ++ (u' ++ '=' :: y'))) :
    i = i' ∧ t = t' ∧ u = u' ∧ y = y' := by
  have e1 : (i ++ (t ++ u)) ++ '=' :: y = (i' ++ (t' ++ u')) ++ '=' :: y' := by simpa using e
  obtain ⟨e2, e3⟩ := cut_eq (noeq_front hi he hu) (noeq_front hi' he' hu') e1
  have hl : i.length = i'.length := by
    have := indent_eq hi (head_of (u := u) hn ht)
    rw [e2, indent_eq hi' (head_of (u := u') hn' ht')] at this
    exact this.symm
  obtain ⟨e4, e5⟩ := List.append_inj e2 hl
  have e6 : t = t' := by
    have := congrArg Loader.rstrip e5
    rwa [rstrip_trim ht.2 hu, rstrip_trim ht'.2 hu'] at this
  subst e6
  exact ⟨e4, rfl, List.append_cancel_left e5, e3⟩

theorem Plain.trim {t : List Char} (h : Plain t) : Trim t := Word.trim h.2.1
theorem Plain.noeq {t : List Char} (h : Plain t) : '=' ∉ t := fun hm => h.2.2 _ hm (by decide)

/-- a line of an option which looks like one of a fitted variable is the line of that variable -/
theorem mine_option {k : Nat} {name v line tag : List Char} (hl : OptionLine k name v line) (hp : Plain tag) (hm : Mine tag line) : tag = name := by
  obtain ⟨s, s', ⟨ind, tail, e, hi, -, -, -, -, -⟩, hs, hs', hne, htn, -, heq, -⟩ := hl
  obtain ⟨pre, post, ind', u, e', hi', hu, -, -⟩ := hm
  have : ind' ++ (tag ++ (u ++ '=' :: (pre ++ '?' :: post))) = ind ++ (name ++ (s ++ '=' :: (s' ++ v ++ tail))) := by
    rw [← e', e]; simp
  exact (front_eq hi' hi hu hs hp.1 hne (Plain.trim hp) htn (Plain.noeq hp) heq this).2.1

/-- the line of a variable whose value has a question mark is found -/
theorem option_mine {k : Nat} {name v line : List Char} (hl : OptionLine k name v line) (hq : '?' ∈ v) (hnl : '\n' ∉ line.dropLast) : Mine name line := by
  obtain ⟨s, s', ⟨ind, tail, e, hi, -, -, -, -, -⟩, hs, hs', hne, htn, -, heq, -⟩ := hl
  obtain ⟨p, q, e1, hp⟩ : ∃ p q, s' ++ v = p ++ '?' :: q ∧ '?' ∉ p := by
    have hm : '?' ∈ s' ++ v := List.mem_append_right _ hq
    generalize s' ++ v = w at hm
    clear e
    induction w with
    | nil => cases hm
    | cons c w ih =>
      by_cases hc : c = '?'
      · subst hc; exact ⟨[], w, rfl, by simp⟩
      · obtain ⟨p, q, e1, hp⟩ := ih (by
          rcases List.mem_cons.1 hm with h | h
          · exact absurd h.symm hc
          · exact h)
        refine ⟨c :: p, q, by rw [e1]; rfl, ?_⟩
        rw [List.mem_cons, not_or]
        exact ⟨fun h => hc h.symm, hp⟩
  have e2 : line = ind ++ (name ++ (s ++ '=' :: (p ++ '?' :: (q ++ tail)))) := by
    rw [e]
    have : name ++ (s ++ '=' :: (s' ++ v)) ++ tail = name ++ (s ++ '=' :: ((s' ++ v) ++ tail)) := by simp
    rw [this, e1]
    simp
  refine ⟨p, q ++ tail, ind, s, e2, hi, hs, hp, fun hm => hnl ?_⟩
  rw [e2, show ind ++ (name ++ (s ++ '=' :: (p ++ '?' :: (q ++ tail)))) = (ind ++ (name ++ (s ++ '=' :: p))) ++ '?' :: (q ++ tail) by simp,
    List.dropLast_append_of_ne_nil (by simp)]
  simp [hm]

/-- the new line is an option line with the same name, and the same indentation -/
theorem new_option {k : Nat} {name v line line' tag value : List Char} (hl : OptionLine k name v line) (hp : Plain tag) (hh : '#' ∉ tag) (hv : NumText value)
    (hnew : NewText tag value line line') : tag = name ∧ OptionLine k name value line' := by
  obtain ⟨s, s', ⟨ind, tail, e, hi, hk, -, -, -, -⟩, hs, hs', hne, htn, -, heq, hbr⟩ := hl
  obtain ⟨ind', u, pre, post, hi', hu, -, e', e''⟩ := hnew
  have : ind' ++ (tag ++ (u ++ '=' :: (pre ++ '?' :: post))) = ind ++ (name ++ (s ++ '=' :: (s' ++ v ++ tail))) := by
    rw [← e', e]; simp
  obtain ⟨rfl, rfl, rfl, -⟩ := front_eq hi' hi hu hs hp.1 hne (Plain.trim hp) htn (Plain.noeq hp) heq this
  refine ⟨rfl, u, [' '], ⟨ind', ' ' :: '#' :: (' ' :: '?' :: post), ?_, hi', hk, by simp [hne], ⟨?_, ?_⟩, ?_, ?_⟩, hu, by decide, hne, htn, Word.trim hv.2.1,
    heq, hbr⟩
  · rw [e'']; simp
  · exact head_of hne htn
  · intro d hd
    have : (tag ++ (u ++ '=' :: ([' '] ++ value))) = (tag ++ (u ++ '=' :: [' '])) ++ value := by simp
    rw [this, List.getLast?_append_of_ne_nil _ hv.1] at hd
    exact (Word.trim hv.2.1).2 d hd
  · intro a b hab
    have hm : '#' ∈ tag ++ (u ++ '=' :: ([' '] ++ value)) := by rw [hab]; simp
    simp only [List.mem_append, List.mem_cons, List.not_mem_nil, or_false] at hm
    rcases hm with h | h | h | h | h
    · exact absurd h hh
    · exact absurd (hu _ h) (by decide)
    · cases h
    · cases h
    · exact absurd h hv.2.2.2
  · exact .inr ⟨[], ' ', ' ' :: '?' :: post, rfl, by simp [Blank], by decide⟩

theorem not_mine_comment {line tag : List Char} (hc : CommentLine line) (hp : Plain tag) (hh : '#' ∉ tag) : ¬ Mine tag line := by
  rintro ⟨pre, post, ind, s, e, hi, -⟩
  obtain ⟨ind', r, e', hi'⟩ := hc
  have h1 := congrArg (List.dropWhile pySpace) (e.symm.trans e')
  rw [KappaCfg.dropWhile_blank hi (fun d hd => head_of (u := s ++ '=' :: (pre ++ '?' :: post)) hp.1 (Plain.trim hp) d hd),
    KappaCfg.dropWhile_blank hi' (fun d hd => by cases hd; decide)] at h1
  cases tag with
  | nil => exact hp.1 rfl
  | cons a tag =>
    simp only [List.cons_append, List.cons.injEq] at h1
    exact hh (by rw [h1.1]; exact List.mem_cons_self)

theorem not_mine_blank {line tag : List Char} (hc : Blank line) : ¬ Mine tag line := by
  rintro ⟨pre, post, ind, s, e, hi, -⟩
  exact absurd (hc '=' (by rw [e]; simp)) (by decide)

/-! ## Blocks -/

theorem join_cons (v : List Char) (A : List (List Char)) : Interface.join ['\n'] (v :: A) = v ++ A.flatMap ('\n' :: ·) := by
  induction A generalizing v with
  | nil => simp [Interface.join]
  | cons a A ih => rw [Interface.join, ih, List.flatMap_cons]; simp

theorem trim_blank_end {v x t : List Char} (hv : Trim v) (e : v = x ++ t) (ht : Blank t) : t = [] := by
  by_contra hne
  have : v.getLast? = t.getLast? := by rw [e, List.getLast?_append_of_ne_nil _ hne]
  have h1 := List.getLast?_eq_some_getLast hne
  have h2 := hv.2 _ (this.trans h1)
  rw [ht _ (List.getLast_mem hne)] at h2
  cases h2

/-- a value on one line leaves only comments and empty lines behind the option line -/
theorem block_oneline {k : Nat} {o : List Char × List Char} {lines : List (List Char)} (h : OptionBlock k o lines) (hn : '\n' ∉ o.2) :
    ∃ l ls adds, lines = l :: ls ∧ OptionLine k o.1 o.2 l ∧ Junk ls ∧ List.Forall₂ (MoreLine k) ls adds ∧ ∀ x ∈ adds.flatten, x = [] := by
  obtain ⟨l, ls, v, adds, t, rfl, hl, hm, hj, ht, hlast⟩ := h
  have htv : Trim v := by obtain ⟨_, _, _, _, _, _, _, htv, _⟩ := hl; exact htv
  rw [join_cons] at hj
  have hv : v = o.2 ∧ Blank (adds.flatten.flatMap ('\n' :: ·)) := by
    rcases List.append_eq_append_iff.1 hj with ⟨a, e1, e2⟩ | ⟨c, e1, e2⟩
    · cases a with
      | nil => exact ⟨by simpa using e1.symm, by rw [e2]; exact ht⟩
      | cons d a =>
        exfalso
        cases hA : adds.flatten with
        | nil => rw [hA] at e2; simp at e2
        | cons y A =>
          rw [hA, List.flatMap_cons] at e2
          simp only [List.cons_append, List.cons.injEq] at e2
          exact hn (by rw [e1, ← e2.1]; simp)
    · have hc : c = [] := trim_blank_end htv e1 fun d hd => ht d (by rw [e2]; simp [hd])
      subst hc
      exact ⟨by simpa using e1, by rw [List.nil_append] at e2; rw [← e2]; exact ht⟩
  obtain ⟨rfl, hb⟩ := hv
  have hempty : ∀ x ∈ adds.flatten, x = [] := by
    intro x hx
    obtain ⟨add, hadd, hxa⟩ := List.mem_flatten.1 hx
    obtain ⟨z, -, hz⟩ := KappaCfg.forall2_mem_right hm add hadd
    rcases hz with ⟨-, rfl⟩ | ⟨-, rfl⟩ | ⟨c, k', ⟨_, _, _, _, _, hc, htc, _⟩, -, rfl⟩
    · cases hxa
    · exact List.mem_singleton.1 hxa
    · exfalso
      have := List.mem_singleton.1 hxa
      subst this
      cases x with
      | nil => exact hc rfl
      | cons d x =>
        have h1 := htc.1 d rfl
        rw [hb d (List.mem_flatMap.2 ⟨_, hx, by simp⟩)] at h1
        cases h1
  refine ⟨l, ls, adds, rfl, hl, ?_, hm, hempty⟩
  intro x hx
  obtain ⟨add, hadd, hz⟩ := KappaCfg.forall2_mem_left hm x hx
  rcases hz with ⟨hc, -⟩ | ⟨hb, -⟩ | ⟨c, k', ⟨_, _, _, _, _, hc, _⟩, -, rfl⟩
  · exact .inl hc
  · exact .inr hb
  · exact absurd (hempty c (List.mem_flatten.2 ⟨_, hadd, by simp⟩)) hc

/-- what the substitution does with one line -/
def Changed (vars : List (List Char × List Char)) (l l' : List Char) : Prop :=
  (∃ p ∈ vars, NewText p.1 p.2 l l') ∨ ((∀ p ∈ vars, ¬ Mine p.1 l) ∧ l' = l)

/-- the fitted variables: names and texts of the values -/
def Fitted (vars opts : List (List Char × List Char)) : Prop :=
  (vars.map Prod.fst).Nodup ∧ ∀ p ∈ vars, Plain p.1 ∧ '#' ∉ p.1 ∧ NumText p.2 ∧ ∃ v, (p.1, v) ∈ opts ∧ '?' ∈ v

theorem newText_eq_mem {tag value l l' : List Char} (h : NewText tag value l l') : '=' ∈ l := by
  obtain ⟨ind, s, pre, post, -, -, -, e, -⟩ := h
  rw [e]; simp

theorem junk_kept {vars : List (List Char × List Char)} (hv : ∀ p ∈ vars, Plain p.1 ∧ '#' ∉ p.1) {l l' : List Char} (hj : CommentLine l ∨ Blank l)
    (h : Changed vars l l') : l' = l := by
  rcases h with ⟨p, hp, hnew⟩ | h
  · exfalso
    obtain ⟨h1, h2⟩ := hv p hp
    rcases hj with hc | hb
    · obtain ⟨ind, s, pre, post, hi, hs, hq, e, -⟩ := hnew
      obtain ⟨ind', r, e', hi'⟩ := hc
      have h3 := congrArg (List.dropWhile pySpace) (e.symm.trans e')
      rw [KappaCfg.dropWhile_blank hi (fun d hd => head_of (u := s ++ '=' :: (pre ++ '?' :: post)) h1.1 (Plain.trim h1) d hd),
        KappaCfg.dropWhile_blank hi' (fun d hd => by cases hd; decide)] at h3
      cases ht : p.1 with
      | nil => exact h1.1 ht
      | cons a tag =>
        rw [ht] at h3
        simp only [List.cons_append, List.cons.injEq] at h3
        exact h2 (by rw [ht, h3.1]; exact List.mem_cons_self)
    · exact absurd (hb '=' (newText_eq_mem hnew)) (by decide)
  · exact h.2

theorem junk_all {vars : List (List Char × List Char)} (hv : ∀ p ∈ vars, Plain p.1 ∧ '#' ∉ p.1) {ls ls' : List (List Char)} (hj : Junk ls)
    (h : List.Forall₂ (Changed vars) ls ls') : ls' = ls := by
  induction h with
  | nil => rfl
  | @cons l l' ls ls' h1 _ ih =>
    rw [junk_kept hv (hj l List.mem_cons_self) h1, ih fun x hx => hj x (List.mem_cons_of_mem _ hx)]

theorem flatMap_empty {A : List (List Char)} (h : ∀ x ∈ A, x = []) : Blank (A.flatMap ('\n' :: ·)) := by
  intro d hd
  obtain ⟨x, hx, hd⟩ := List.mem_flatMap.1 hd
  rw [h x hx] at hd
  rw [List.mem_singleton.1 hd]
  decide

theorem get?_of_nodup {vars : List (List Char × List Char)} (hn : (vars.map Prod.fst).Nodup) {p : List Char × List Char} (hp : p ∈ vars) :
    get? vars p.1 = some p.2 := by
  induction vars with
  | nil => cases hp
  | cons q vars ih =>
    obtain ⟨k, v⟩ := q
    rw [List.map_cons, List.nodup_cons] at hn
    rw [get?_cons]
    rcases List.mem_cons.1 hp with rfl | hp
    · simp
    · rw [if_neg, ih hn.2 hp]
      intro e
      simp only at e
      exact hn.1 (List.mem_map.2 ⟨p, hp, e.symm⟩)

/-- a block of one option, before and after -/
theorem block_changed {vars opts : List (List Char × List Char)} (hf : Fitted vars opts) (hnd : (opts.map Prod.fst).Nodup) {k : Nat} {o : List Char × List Char}
    (ho : o ∈ opts) {b b' : List (List Char)} (hb : OptionBlock k o b) (hone : '\n' ∉ o.2) (hnl : ∀ l ∈ b, '\n' ∉ l.dropLast)
    (h : List.Forall₂ (Changed vars) b b') : OptionBlock k (o.1, (get? vars o.1).getD o.2) b' := by
  have hjk : ∀ p ∈ vars, Plain p.1 ∧ '#' ∉ p.1 := fun p hp => ⟨(hf.2 p hp).1, (hf.2 p hp).2.1⟩
  obtain ⟨l, ls, adds, rfl, hl, hj, hm, hempty⟩ := block_oneline hb hone
  cases h with
  | @cons _ l' _ ls' h1 h2 =>
    have e := junk_all hjk hj h2
    subst e
    rcases h1 with ⟨p, hp, hnew⟩ | ⟨h1, rfl⟩
    · obtain ⟨hpl, hh, hnum, -⟩ := hf.2 p hp
      obtain ⟨e1, hl'⟩ := new_option hl hpl hh hnum hnew
      rw [← e1, get?_of_nodup hf.1 hp]
      rw [← e1] at hl'
      refine ⟨l', ls', p.2, adds, adds.flatten.flatMap ('\n' :: ·), rfl, hl', hm, by rw [join_cons]; rfl, flatMap_empty hempty, ?_⟩
      exact (Word.trim hnum.2.1).2
    · have hnone : get? vars o.1 = none := by
        cases hg : get? vars o.1 with
        | none => rfl
        | some val =>
          exfalso
          have hp := get?_mem hg
          obtain ⟨-, -, -, v, hv, hq⟩ := hf.2 _ hp
          have : o.2 = v := by
            have h3 := get?_of_nodup hnd hv
            have h4 := get?_of_nodup hnd ho
            simp only at h3
            rw [h3] at h4
            exact (Option.some.inj h4).symm
          exact h1 _ hp (option_mine hl (by rw [this]; exact hq) (hnl _ (by simp)))
      rw [hnone]
      exact hb

theorem changed_append {vars : List (List Char × List Char)} {a b c : List (List Char)} (h : List.Forall₂ (Changed vars) (a ++ b) c) :
    ∃ a' b', c = a' ++ b' ∧ List.Forall₂ (Changed vars) a a' ∧ List.Forall₂ (Changed vars) b b' :=
  by
  induction a generalizing c with
  | nil => exact ⟨[], c, rfl, .nil, h⟩
  | cons x a ih =>
    cases h with
    | @cons _ y _ c h1 h2 =>
      obtain ⟨a', b', rfl, h3, h4⟩ := ih h2
      exact ⟨y :: a', b', rfl, .cons h1 h3, h4⟩

theorem blocks_changed {vars opts : List (List Char × List Char)} (hf : Fitted vars opts) (hnd : (opts.map Prod.fst).Nodup) {k : Nat}
    {os : List (List Char × List Char)} {blocks : List (List (List Char))} {c : List (List Char)} (hsub : ∀ o ∈ os, o ∈ opts)
    (hbs : List.Forall₂ (OptionBlock k) os blocks) (hone : ∀ o ∈ os, '\n' ∉ o.2) (hnl : ∀ l ∈ blocks.flatten, '\n' ∉ l.dropLast)
    (h : List.Forall₂ (Changed vars) blocks.flatten c) : ∃ blocks', c = blocks'.flatten ∧ List.Forall₂ (OptionBlock k) (fixedOpts vars os) blocks' := by
  induction hbs generalizing c with
  | nil =>
    cases h
    exact ⟨[], rfl, .nil⟩
  | @cons o b os blocks hb hbs ih =>
    rw [List.flatten_cons] at h
    obtain ⟨b', c', rfl, h1, h2⟩ := changed_append h
    obtain ⟨blocks', rfl, hbs'⟩ := ih (fun o ho => hsub o (List.mem_cons_of_mem _ ho))
      (fun o ho => hone o (List.mem_cons_of_mem _ ho)) (fun l hl => hnl l (by rw [List.flatten_cons]; exact List.mem_append_right _ hl)) h2
    have := block_changed hf hnd (hsub o List.mem_cons_self) hb (hone o List.mem_cons_self)
      (fun l hl => hnl l (by rw [List.flatten_cons]; exact List.mem_append_left _ hl)) h1
    exact ⟨b' :: blocks', rfl, .cons this hbs'⟩

/-! ## Every variable has one line -/

theorem blocks_pairwise {vars : List (List Char × List Char)} (hv : ∀ p ∈ vars, Plain p.1 ∧ '#' ∉ p.1) {k : Nat}
    {os : List (List Char × List Char)} {blocks : List (List (List Char))} (hbs : List.Forall₂ (OptionBlock k) os blocks) (hone : ∀ o ∈ os, '\n' ∉ o.2)
    (hnd : (os.map Prod.fst).Nodup) :
    (blocks.flatten).Pairwise (fun a b => ∀ p ∈ vars, Mine p.1 a → ¬ Mine p.1 b) ∧
      ∀ l ∈ blocks.flatten, ∀ p ∈ vars, Mine p.1 l → p.1 ∈ os.map Prod.fst := by
  induction hbs with
  | nil => exact ⟨.nil, by intro l hl; cases hl⟩
  | @cons o b os blocks hb hbs ih =>
    rw [List.map_cons, List.nodup_cons] at hnd
    obtain ⟨ih1, ih2⟩ := ih (fun o ho => hone o (List.mem_cons_of_mem _ ho)) hnd.2
    obtain ⟨l, ls, adds, rfl, hl, hj, -, -⟩ := block_oneline hb (hone o List.mem_cons_self)
    have hno : ∀ x ∈ ls, ∀ p ∈ vars, ¬ Mine p.1 x := by
      intro x hx p hp
      rcases hj x hx with hc | hc
      · exact not_mine_comment hc (hv p hp).1 (hv p hp).2
      · exact not_mine_blank hc
    have hfst : ∀ p ∈ vars, Mine p.1 l → p.1 = o.1 := fun p hp hm => mine_option hl (hv p hp).1 hm
    refine ⟨?_, ?_⟩
    · rw [List.flatten_cons, List.cons_append, List.pairwise_cons, List.pairwise_append]
      refine ⟨?_, ?_, ih1, ?_⟩
      · intro x hx p hp hm hmx
        rcases List.mem_append.1 hx with hx | hx
        · exact hno x hx p hp hmx
        · exact hnd.1 (by rw [← hfst p hp hm]; exact ih2 x hx p hp hmx)
      · rw [List.pairwise_iff_forall_sublist]
        intro a c hs p hp hm
        exact absurd hm (hno a (hs.subset (by simp)) p hp)
      · intro x hx y _ p hp hm
        exact absurd hm (hno x hx p hp)
    · intro x hx p hp hm
      rw [List.flatten_cons, List.cons_append] at hx
      rcases List.mem_cons.1 hx with rfl | hx
      · rw [List.map_cons, hfst p hp hm]; exact List.mem_cons_self
      · rcases List.mem_append.1 hx with hx | hx
        · exact absurd hm (hno x hx p hp)
        · exact List.mem_cons_of_mem _ (ih2 x hx p hp hm)

theorem rewritten_changed {vars : List (List Char × List Char)} {body body' : List (List Char)} (hr : Rewritten vars body body')
    (hpw : body.Pairwise (fun a b => ∀ p ∈ vars, Mine p.1 a → ¬ Mine p.1 b)) : List.Forall₂ (Changed vars) body body' := by
  rw [List.forall₂_iff_get]
  refine ⟨hr.length.symm, fun i h1 h2 => ?_⟩
  rw [List.get_eq_getElem, List.get_eq_getElem]
  have e1 : body[i]? = some body[i] := List.getElem?_eq_getElem h1
  have e2 : body'[i]? = some body'[i] := List.getElem?_eq_getElem h2
  by_cases hex : ∃ p ∈ vars, Mine p.1 body[i]
  · obtain ⟨p, hp, hm⟩ := hex
    have hfirst : IsFirst p.1 body i := by
      refine ⟨⟨_, e1, hm⟩, fun j hj line hl hml => ?_⟩
      obtain ⟨hj', rfl⟩ := List.getElem?_eq_some_iff.1 hl
      exact (List.pairwise_iff_getElem.1 hpw j i hj' h1 hj) p hp hml hm
    obtain ⟨line', e3, hnew⟩ := hr.changed p hp i _ hfirst e1
    rw [e2] at e3
    cases e3
    exact .inl ⟨p, hp, hnew⟩
  · right
    refine ⟨fun p hp hm => hex ⟨p, hp, hm⟩, ?_⟩
    have := hr.kept i (fun p hp hf => by
      obtain ⟨⟨line, e3, hm⟩, -⟩ := hf
      rw [e1] at e3
      cases e3
      exact hex ⟨p, hp, hm⟩)
    rw [e1, e2] at this
    exact Option.some.inj this

/-! ## Headers -/

theorem header_name {n l : List Char} (h : HeaderLine n l) : KappaCfg.headerOf l = some n := by
  obtain ⟨s, s', rest, ⟨ind, tail, e, hi, -⟩, hs, hs', hne, hb, hfst, hlst⟩ := h
  have := KappaCfg.headerOf_name' (rest := rest ++ tail) hi hs hs' hne hb hfst hlst
  rw [e]
  rw [← this]
  congr 1
  simp

theorem header_sect {n l : List Char} (h : HeaderLine n l) : SectLine l := KappaCfg.headerOf_isSome_iff.1 (by rw [header_name h]; rfl)

theorem header_vars {n l : List Char} (h : HeaderLine n l) : VarsHeader l ↔ n = "variables".toList := by
  rw [← KappaCfg.headerOf_vars_iff, header_name h, Option.some.injEq]

theorem junk_not_sect {l : List Char} (h : CommentLine l ∨ Blank l) : ¬ SectLine l := by
  rintro ⟨ind, x, rest, e, hi, -⟩
  rcases h with ⟨ind', r, e', hi'⟩ | hb
  · have h3 := congrArg (List.dropWhile pySpace) (e.symm.trans e')
    rw [KappaCfg.dropWhile_blank hi (fun d hd => by cases hd; decide), KappaCfg.dropWhile_blank hi' (fun d hd => by cases hd; decide)] at h3
    simp at h3
  · exact absurd (hb '[' (by rw [e]; simp)) (by decide)

/-- only the first line of a section is a header -/
theorem section_header {sect : List Char × List (List Char × List Char)} {h : List Char} {rest : List (List Char)} (hs : SectionBlock sect (h :: rest)) :
    ∀ l ∈ rest, ∀ n, ¬ HeaderLine n l := by
  obtain ⟨h', junk, k, blocks, e, -, hj, hb, -⟩ := hs
  simp only [List.cons.injEq] at e
  obtain ⟨rfl, rfl⟩ := e
  intro l hl n hn
  rcases List.mem_append.1 hl with hl | hl
  · exact junk_not_sect (hj l hl) (header_sect hn)
  · obtain ⟨b, hbm, hl⟩ := List.mem_flatten.1 hl
    obtain ⟨o, -, ho⟩ := KappaCfg.forall2_mem_right hb b hbm
    obtain ⟨l0, ls, v, adds, t, rfl, hopt, hmore, -⟩ := ho
    have hn0 : ∃ c, Shows 0 c l ∧ c.head? = some '[' := by
      obtain ⟨s, s', r, hsh, -⟩ := hn
      exact ⟨_, hsh, rfl⟩
    obtain ⟨c, hsh, hc⟩ := hn0
    obtain ⟨r1, -, r2⟩ := shows_read hsh
    rcases List.mem_cons.1 hl with rfl | hl
    · obtain ⟨s, s', hsh', -, -, hne, -, -, -, hbr⟩ := hopt
      obtain ⟨r1', -, -⟩ := shows_read hsh'
      rw [r1] at r1'
      rw [r1'] at hc
      cases ho : o.1 with
      | nil => exact hne ho
      | cons d x =>
        rw [ho] at hc hbr
        exact hbr hc
    · obtain ⟨add, -, hm⟩ := KappaCfg.forall2_mem_left hmore l hl
      rcases hm with ⟨hcl, -⟩ | ⟨hbl, -⟩ | ⟨c', k', hsh', hlt, -⟩
      · exact junk_not_sect (.inl hcl) (header_sect hn)
      · exact junk_not_sect (.inr hbl) (header_sect hn)
      · obtain ⟨-, -, r2'⟩ := shows_read hsh'
        omega

theorem forall2_split {α β : Type} {R : α → β → Prop} {x : α} {b : List α} : ∀ {a : List α} {l : List β}, List.Forall₂ R (a ++ x :: b) l →
    ∃ l1 y l2, l = l1 ++ y :: l2 ∧ List.Forall₂ R a l1 ∧ R x y ∧ List.Forall₂ R b l2
  | [], _, .cons h1 h2 => ⟨[], _, _, rfl, .nil, h1, h2⟩
  | a :: as, _, .cons h1 h2 => by
    obtain ⟨l1, y, l2, rfl, h3, h4, h5⟩ := forall2_split h2
    exact ⟨_ :: l1, y, l2, rfl, .cons h1 h3, h4, h5⟩

theorem forall2_join {α β : Type} {R : α → β → Prop} {x : α} {y : β} {b : List α} {l2 : List β} : ∀ {a : List α} {l1 : List β}, List.Forall₂ R a l1 → R x y →
    List.Forall₂ R b l2 → List.Forall₂ R (a ++ x :: b) (l1 ++ y :: l2)
  | _, _, .nil, h, h' => .cons h h'
  | _, _, .cons h1 h2, h, h' => .cons h1 (forall2_join h2 h h')

theorem fixed_others {vars : List (List Char × List Char)} {c : List (List Char × List (List Char × List Char))} (h : ∀ s ∈ c, s.1 ≠ "variables".toList) :
    fixedCfg vars c = c := by
  unfold fixedCfg
  conv_rhs => rw [← List.map_id c]
  apply List.map_congr_left
  intro s hs
  rw [if_neg (h s hs)]
  rfl

/-- the substitution succeeds; the new file shows the new configuration, and its lines are the old ones, but for those of fitted variables -/
theorem shows_lines (cfg : List (List Char × List (List Char × List Char))) (lines : List (List Char)) (hs : FileShows cfg lines)
    (opts vars : List (List Char × List Char)) (hv : ("variables".toList, opts) ∈ cfg) (hf : Fitted vars opts)
    (hone : ∀ o ∈ opts, '\n' ∉ o.2) (hnl : ∀ l ∈ lines, '\n' ∉ l.dropLast) (hb : ∀ l ∈ lines, SectLine l → ∃ n, HeaderLine n l) :
    ∃ lines', substitutedTags vars lines = some (.ok lines') ∧ FileShows (fixedCfg vars cfg) lines' ∧
      List.Forall₂ (fun l l' => l' = l ∨ ∃ p ∈ vars, NewText p.1 p.2 l l') lines lines' := by
  obtain ⟨junk, sblocks, rfl, hjunk, hblocks, hnodup⟩ := hs
  obtain ⟨c1, c2, rfl⟩ := List.append_of_mem hv
  obtain ⟨b1, b, b2, rfl, hb1, hbv, hb2⟩ := forall2_split hblocks
  have hsec := hbv
  obtain ⟨h, junk', k, blocks, rfl, hh, hj', hopts, hnd, hdef⟩ := hbv
  simp only at hh hopts hnd
  rw [List.map_append, List.map_cons, List.nodup_append] at hnodup
  obtain ⟨n1, n2, n3⟩ := hnodup
  rw [List.nodup_cons] at n2
  have hc1 : ∀ s ∈ c1, s.1 ≠ "variables".toList := fun s hs => n3 s.1 (List.mem_map_of_mem hs) _ List.mem_cons_self
  have hc2 : ∀ s ∈ c2, s.1 ≠ "variables".toList := fun s hs e => n2.1 (by simp only [← e]; exact List.mem_map_of_mem hs)
  have hflat : junk ++ (b1 ++ (h :: (junk' ++ blocks.flatten)) :: b2).flatten = (junk ++ b1.flatten) ++ h :: ((junk' ++ blocks.flatten) ++ b2.flatten) := by
    simp
  rw [hflat] at hnl hb ⊢
  have hpart : Parted ((junk ++ b1.flatten) ++ h :: ((junk' ++ blocks.flatten) ++ b2.flatten)) (junk ++ b1.flatten) h (junk' ++ blocks.flatten) b2.flatten := by
    refine ⟨rfl, (header_vars hh).2 rfl, ?_, ?_, ?_⟩
    · intro l hl hvh
      obtain ⟨n, hn⟩ := hb l (by simp only [List.mem_append] at hl ⊢; exact .inl hl) hvh.sect
      have hnv := (header_vars hn).1 hvh
      rcases List.mem_append.1 hl with hl | hl
      · exact junk_not_sect (hjunk l hl) hvh.sect
      · obtain ⟨blk, hblk, hl⟩ := List.mem_flatten.1 hl
        obtain ⟨sect, hsm, hsb⟩ := KappaCfg.forall2_mem_right hb1 blk hblk
        have hsb' := hsb
        obtain ⟨h0, j0, k0, bl0, rfl, hh0, -⟩ := hsb
        rcases List.mem_cons.1 hl with rfl | hl
        · have := header_name hh0
          rw [header_name hn] at this
          exact hc1 sect hsm ((Option.some.inj this).symm.trans hnv)
        · exact section_header hsb' l hl n hn
    · intro l hl hsl
      obtain ⟨n, hn⟩ := hb l (by simp only [List.mem_append, List.mem_cons] at hl ⊢; exact .inr (.inr (.inl hl))) hsl
      exact section_header hsec l hl n hn
    · intro l hl
      cases hb2 with
      | nil => cases hl
      | cons hx _ =>
        obtain ⟨h0, j0, k0, bl0, rfl, hh0, -⟩ := hx
        cases hl
        exact header_sect hh0
  have hpl : ∀ p ∈ vars, Plain p.1 ∧ '#' ∉ p.1 := fun p hp => ⟨(hf.2 p hp).1, (hf.2 p hp).2.1⟩
  obtain ⟨body', e, hr⟩ := KappaCfg.C93_result (fun p hp => ⟨(hf.2 p hp).1, (hf.2 p hp).2.2.1⟩) hf.1 hpart (by
    intro p hp
    obtain ⟨-, -, -, v, hv, hq⟩ := hf.2 p hp
    obtain ⟨blk, hblk, ho⟩ := KappaCfg.forall2_mem_left hopts _ hv
    obtain ⟨l, ls, adds, rfl, hl, -⟩ := block_oneline ho (hone _ hv)
    have hmem : l ∈ blocks.flatten := List.mem_flatten.2 ⟨_, hblk, List.mem_cons_self⟩
    refine ⟨l, List.mem_append_right _ hmem, option_mine hl hq (hnl l ?_)⟩
    simp only [List.mem_append, List.mem_cons]
    exact .inr (.inr (.inl (.inr hmem))))
  obtain ⟨pw1, pw2⟩ := blocks_pairwise hpl hopts hone hnd
  have hch := rewritten_changed hr (by
    rw [List.pairwise_append]
    have hno : ∀ x ∈ junk', ∀ p ∈ vars, ¬ Mine p.1 x := by
      intro x hx p hp
      rcases hj' x hx with hc | hc
      · exact not_mine_comment hc (hpl p hp).1 (hpl p hp).2
      · exact not_mine_blank hc
    refine ⟨?_, pw1, fun x hx y _ p hp hm => absurd hm (hno x hx p hp)⟩
    rw [List.pairwise_iff_forall_sublist]
    intro a c hs p hp hm
    exact absurd hm (hno a (hs.subset (by simp)) p hp))
  have hall : List.Forall₂ (fun l l' => l' = l ∨ ∃ p ∈ vars, NewText p.1 p.2 l l') ((junk ++ b1.flatten) ++ h :: ((junk' ++ blocks.flatten) ++ b2.flatten))
      ((junk ++ b1.flatten) ++ h :: (body' ++ b2.flatten)) := by
    have hid : ∀ m : List (List Char), List.Forall₂ (fun l l' => l' = l ∨ ∃ p ∈ vars, NewText p.1 p.2 l l') m m := fun m =>
      List.forall₂_same.2 fun _ _ => .inl rfl
    refine List.rel_append (hid _) (.cons (.inl rfl) (List.rel_append (hch.imp fun l l' hc => ?_) (hid _)))
    rcases hc with hc | ⟨-, hc⟩
    · exact .inr hc
    · exact .inl hc
  obtain ⟨junk2, rest, rfl, h1, h2⟩ := changed_append hch
  have := junk_all hpl hj' h1
  subst this
  obtain ⟨blocks', rfl, hb'⟩ := blocks_changed hf hnd (fun _ h => h) hopts hone (fun l hl => hnl l (by
    simp only [List.mem_append, List.mem_cons]
    exact .inr (.inr (.inl (.inr hl))))) h2
  refine ⟨_, e, ⟨junk, b1 ++ (h :: (junk2 ++ blocks'.flatten)) :: b2, by simp, hjunk, ?_, ?_⟩, hall⟩
  · have : fixedCfg vars (c1 ++ ("variables".toList, opts) :: c2) = c1 ++ ("variables".toList, fixedOpts vars opts) :: c2 := by
      have e1 := fixed_others (vars := vars) hc1
      have e2 := fixed_others (vars := vars) hc2
      unfold fixedCfg at e1 e2 ⊢
      rw [List.map_append, List.map_cons, e1, e2]
      rfl
    rw [this]
    refine forall2_join hb1 ?_ hb2
    refine ⟨h, junk2, k, blocks', rfl, hh, hj', hb', ?_, hdef⟩
    simp only [fixedOpts, List.map_map]
    exact hnd
  · have : (fixedCfg vars (c1 ++ ("variables".toList, opts) :: c2)).map Prod.fst = (c1 ++ ("variables".toList, opts) :: c2).map Prod.fst := by
      unfold fixedCfg
      rw [List.map_map]
      apply List.map_congr_left
      intro s _
      simp only [Function.comp]
      split <;> rfl
    rw [this, List.map_append, List.map_cons, List.nodup_append]
    exact ⟨n1, List.nodup_cons.2 n2, n3⟩

/-- **C122** The substituted configuration: let a file show a configuration in which every value of the section `variables` stands on one
line, and let the fitted variables be variables of that section, with a question mark.  Then the substitution succeeds, and the file it
makes shows the same configuration, in which the fitted variables have their values, and nothing else is different. -/
theorem C122_shows (cfg : List (List Char × List (List Char × List Char))) (lines : List (List Char)) (hs : FileShows cfg lines)
    (opts vars : List (List Char × List Char)) (hv : ("variables".toList, opts) ∈ cfg) (hf : Fitted vars opts)
    (hone : ∀ o ∈ opts, '\n' ∉ o.2) (hnl : ∀ l ∈ lines, '\n' ∉ l.dropLast) (hb : ∀ l ∈ lines, SectLine l → ∃ n, HeaderLine n l) :
    ∃ lines', substitutedTags vars lines = some (.ok lines') ∧ FileShows (fixedCfg vars cfg) lines' := by
  obtain ⟨lines', h1, h2, -⟩ := shows_lines cfg lines hs opts vars hv hf hone hnl hb
  exact ⟨lines', h1, h2⟩

/-- **C122** Read back, the substituted configuration is the one that was read first, with the fitted values in the section `variables`. -/
theorem C122_reads (cfg : List (List Char × List (List Char × List Char))) (lines : List (List Char)) (hs : FileShows cfg lines)
    (opts vars : List (List Char × List Char)) (hv : ("variables".toList, opts) ∈ cfg) (hf : Fitted vars opts)
    (hone : ∀ o ∈ opts, '\n' ∉ o.2) (hnl : ∀ l ∈ lines, '\n' ∉ l.dropLast) (hb : ∀ l ∈ lines, SectLine l → ∃ n, HeaderLine n l) :
    readCfg lines = .ok { sections := cfg, defaults := [] } ∧
      ∃ lines', substitutedTags vars lines = some (.ok lines') ∧ readCfg lines' = .ok { sections := fixedCfg vars cfg, defaults := [] } := by
  obtain ⟨lines', e, h⟩ := C122_shows cfg lines hs opts vars hv hf hone hnl hb
  exact ⟨C121_reads _ _ hs, lines', e, C121_reads _ _ h⟩

end TEflow.CfgSubst
