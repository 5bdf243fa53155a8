import Verif.Spec.CfgText

/-! # C121: reading configuration files -/

set_option linter.unusedSimpArgs false
set_option linter.unusedVariables false

namespace TEflow.CfgText

open Re PyDict
open KappaCfg (Blank Spaces Word)

/-! ## Lines -/

theorem cut_quiet : ∀ (x : List Char) (prev : Option Char) (y : List Char),
    (∀ a b, x = a ++ '#' :: b → ∃ d, (a.getLast?).or prev = some d ∧ pySpace d = false) →
    cutComment prev (x ++ y) = x ++ cutComment ((x.getLast?).or prev) y := by
  intro x
  induction x with
  | nil => intro prev y _; simp
  | cons c x ih =>
    intro prev y h
    rw [List.cons_append, cutComment, if_neg]
    · rw [ih]
      · simp only [List.cons_append, List.cons.injEq, true_and]
        congr 2
        cases x with
        | nil => rfl
        | cons d x => rw [List.getLast?_cons_cons]; cases hx : (d :: x).getLast? with
          | none => simp at hx
          | some e => rfl
      · intro a b hab
        obtain ⟨d, hd, hs⟩ := h (c :: a) b (by rw [hab]; rfl)
        refine ⟨d, ?_, hs⟩
        cases a with
        | nil => exact hd
        | cons e a => rw [List.getLast?_cons_cons] at hd; cases ha : (e :: a).getLast? with
          | none => simp at ha
          | some f => rw [ha] at hd; exact hd
    · rintro ⟨rfl, hp⟩
      obtain ⟨d, hd, hs⟩ := h [] x rfl
      rw [hp d (by simpa using hd)] at hs
      cases hs

theorem hash_not_space : pySpace '#' = false := by decide

theorem blank_hash {s : List Char} (h : Blank s) : '#' ∉ s := fun hm => by
  have := h _ hm
  rw [hash_not_space] at this; cases this

theorem cut_blank {s : List Char} (h : Blank s) (prev : Option Char) (y : List Char) :
    cutComment prev (s ++ y) = s ++ cutComment ((s.getLast?).or prev) y := by
  apply cut_quiet
  intro a b e
  exact absurd (by rw [e]; simp) (blank_hash h)

theorem cut_blank_nil {s : List Char} (h : Blank s) (prev : Option Char) : cutComment prev s = s := by
  have := cut_blank h prev []
  simpa [cutComment] using this

theorem cut_tail {t : List Char} (h : Tail t) (prev : Option Char) : ∃ b, Blank b ∧ cutComment prev t = b := by
  rcases h with h | ⟨b, c, r, rfl, hb, hc⟩
  · exact ⟨t, h, cut_blank_nil h prev⟩
  · refine ⟨b ++ [c], ?_, ?_⟩
    · intro d hd
      rcases List.mem_append.1 hd with h | h
      · exact hb _ h
      · rw [List.mem_singleton.1 h]; exact hc
    · have hbc : Blank (b ++ [c]) := by
        intro d hd
        rcases List.mem_append.1 hd with h | h
        · exact hb _ h
        · rw [List.mem_singleton.1 h]; exact hc
      rw [show b ++ c :: '#' :: r = (b ++ [c]) ++ '#' :: r by simp, cut_blank hbc]
      rw [cutComment, if_pos, List.append_nil]
      refine ⟨rfl, fun d hd => ?_⟩
      rw [List.getLast?_concat, Option.some_or] at hd
      cases hd
      exact hc

theorem rstrip_trim {c b : List Char} (hc : ∀ d, c.getLast? = some d → pySpace d = false) (hb : Blank b) : Loader.rstrip (c ++ b) = c := by
  by_cases hne : c = []
  · subst hne; exact KappaCfg.rstrip_blank hb
  · obtain ⟨x, d, rfl⟩ : ∃ x d, c = x ++ [d] := ⟨c.dropLast, c.getLast hne, (List.dropLast_append_getLast hne).symm⟩
    rw [List.append_assoc, List.singleton_append, KappaCfg.rstrip_append (hc d (by simp)), KappaCfg.rstrip_blank hb]

theorem strip_trim {ind c b : List Char} (hi : Blank ind) (hne : c ≠ []) (hc : Trim c) (hb : Blank b) : Loader.strip (ind ++ (c ++ b)) = c := by
  unfold Loader.strip
  rw [KappaCfg.dropWhile_blank hi, rstrip_trim hc.2 hb]
  intro d hd
  apply hc.1
  cases c with
  | nil => exact absurd rfl hne
  | cons e c => exact hd

theorem strip_of_trim {c : List Char} (hc : Trim c) : Loader.strip c = c := by
  by_cases h : c = []
  · subst h; rfl
  · have := strip_trim (ind := []) (b := []) (by simp [Blank]) h hc (by simp [Blank])
    simpa using this

theorem strip_blank {s : List Char} (h : Blank s) : Loader.strip s = [] := by
  unfold Loader.strip
  have : s.dropWhile pySpace = [] := by
    have := KappaCfg.dropWhile_blank (ind := s) (r := []) h (by intro c hc; cases hc)
    simpa using this
  rw [this]; rfl

theorem indent_eq {ind x : List Char} (hi : Blank ind) (hx : ∀ d, x.head? = some d → pySpace d = false) : indentOf (ind ++ x) = ind.length := by
  unfold indentOf
  congr 1
  induction ind with
  | nil =>
    cases x with
    | nil => rfl
    | cons c x => rw [List.nil_append, List.takeWhile_cons, hx c rfl]; rfl
  | cons c ind ih =>
    rw [List.cons_append, List.takeWhile_cons, if_pos (hi c List.mem_cons_self), ih fun d hd => hi d (List.mem_cons_of_mem _ hd)]

/-- what the reader makes of a line showing a text -/
theorem shows_read {k : Nat} {c line : List Char} (h : Shows k c line) : Loader.strip (cutComment none line) = c ∧ c ≠ [] ∧ indentOf line = k := by
  obtain ⟨ind, tail, rfl, hi, hk, hne, ht, hn, htail⟩ := h
  have h1 : cutComment none (ind ++ (c ++ tail)) = (ind ++ c) ++ cutComment (((ind ++ c).getLast?).or none) tail := by
    rw [← List.append_assoc]
    apply cut_quiet
    intro a b e
    rcases List.append_eq_append_iff.1 e with ⟨a', e1, e2⟩ | ⟨a', e1, e2⟩
    · obtain ⟨d, hd, hs⟩ := hn a' b e2
      refine ⟨d, ?_, hs⟩
      have : a' ≠ [] := by rintro rfl; simp at hd
      rw [e1, List.getLast?_append_of_ne_nil _ this, hd]; rfl
    · cases a' with
      | nil =>
        obtain ⟨d, hd, -⟩ := hn [] b (by simpa using e2.symm)
        simp at hd
      | cons x a' =>
        simp only [List.cons_append, List.cons.injEq] at e2
        exact absurd (by rw [e1, ← e2.1]; simp) (blank_hash hi)
  obtain ⟨b, hb, e⟩ := cut_tail htail (((ind ++ c).getLast?).or none)
  rw [h1, e, List.append_assoc]
  refine ⟨strip_trim hi hne ht hb, hne, ?_⟩
  rw [indent_eq hi, hk]
  intro d hd
  apply ht.1
  cases c with
  | nil => exact absurd rfl hne
  | cons e c => exact hd

theorem comment_read {line : List Char} (h : CommentLine line) : Loader.strip (cutComment none line) = [] ∧ cutComment none line ≠ line := by
  obtain ⟨ind, r, rfl, hi⟩ := h
  have : cutComment none (ind ++ '#' :: r) = ind := by
    rw [cut_blank hi, cutComment, if_pos]
    · simp
    · refine ⟨rfl, fun d hd => hi d ?_⟩
      simp at hd
      exact List.mem_of_getLast? hd
  rw [this]
  refine ⟨strip_blank hi, fun e => ?_⟩
  have := congrArg List.length e
  simp at this

/-! ## Steps of the reader -/

theorem step_comment {line : List Char} (h : CommentLine line) (s : St) : s.step line = .ok s := by
  obtain ⟨h1, h2⟩ := comment_read h
  unfold St.step
  simp only
  rw [if_pos h1, if_neg (fun h => h2 h.1)]

theorem step_blank {line : List Char} (h : Blank line) (s : St) :
    s.step line = .ok (if s.sect ≠ none ∧ s.opt ≠ [] then s.append [] else s) := by
  unfold St.step
  simp only [cut_blank_nil h, strip_blank h, if_true, true_and]
  by_cases hc : s.sect ≠ none ∧ s.opt ≠ []
  · rw [if_pos hc, if_pos hc]
  · rw [if_neg hc, if_neg hc]

theorem step_shows {k : Nat} {c line : List Char} (h : Shows k c line) (s : St) :
    s.step line = if s.sect ≠ none ∧ s.opt ≠ [] ∧ s.indent < k then .ok (s.append c) else { s with indent := k }.fresh c := by
  obtain ⟨h1, h2, h3⟩ := shows_read h
  unfold St.step
  simp only
  rw [h1, if_neg h2, h3]

theorem run_append (s : St) (a b : List (List Char)) :
    s.run (a ++ b) = match s.run a with | .error e => .error e | .ok s' => s'.run b := by
  induction a generalizing s with
  | nil => rfl
  | cons l a ih =>
    rw [List.cons_append, St.run, St.run]
    cases s.step l with
    | error e => rfl
    | ok s' => exact ih s'

/-- **C121** A comment line may be put anywhere in a file, or removed, even between the lines of a value: what is read stays the same. -/
theorem C121_comment (a b : List (List Char)) (line : List Char) (h : CommentLine line) : readCfg (a ++ line :: b) = readCfg (a ++ b) := by
  unfold readCfg
  rw [run_append, run_append]
  cases St.start.run a with
  | error e => rfl
  | ok s => simp only [St.run, step_comment h]

/-- two lines the reader cannot tell apart -/
theorem step_congr {l l' : List Char} (h1 : Loader.strip (cutComment none l) = Loader.strip (cutComment none l')) (h2 : Loader.strip (cutComment none l) ≠ [])
    (h3 : indentOf l = indentOf l') (s : St) : s.step l = s.step l' := by
  unfold St.step
  simp only
  rw [if_neg h2, ← h1, if_neg h2, h3]

/-- **C121** Blanks and a comment behind the text of a line do not matter. -/
theorem C121_tail (a b : List (List Char)) (k : Nat) (c l l' : List Char) (h : Shows k c l) (h' : Shows k c l') : readCfg (a ++ l :: b) = readCfg (a ++ l' :: b) := by
  obtain ⟨h1, h2, h3⟩ := shows_read h
  obtain ⟨h1', -, h3'⟩ := shows_read h'
  unfold readCfg
  rw [run_append, run_append]
  cases St.start.run a with
  | error e => rfl
  | ok s => simp only [St.run, step_congr (h1.trans h1'.symm) (by rw [h1]; exact h2) (h3.trans h3'.symm)]

/-! ## The sections of a file -/

/-- the reader in section `n`, which holds `o`, after the sections `done` -/
def inside (done : PyDict (List Char) Opts) (n : List Char) (o : Opts) (opt : List Char) (k : Nat) : St :=
  { sections := done ++ [(n, o)], defaults := [], sect := some n, opt := opt, indent := k, bad := false }

theorem get?_last {ν : Type} {done : PyDict (List Char) ν} {n : List Char} (h : n ∉ keys done) (o : ν) : get? (done ++ [(n, o)]) n = some o := by
  rw [get?_append, (get?_eq_none done n).2 h]
  simp [get?]

theorem set_last {ν : Type} {done : PyDict (List Char) ν} {n : List Char} (h : n ∉ keys done) (o o' : ν) : set (done ++ [(n, o)]) n o' = done ++ [(n, o')] := by
  induction done with
  | nil => simp [PyDict.set]
  | cons p done ih =>
    obtain ⟨k, v⟩ := p
    simp only [keys_cons, List.mem_cons, not_or] at h
    rw [List.cons_append, PyDict.set, if_neg (fun e => h.1 e.symm), ih h.2]
    rfl

theorem inside_current {done : PyDict (List Char) Opts} {n : List Char} (h : n ∉ keys done) (hd : n ≠ defaultName) (o : Opts) (opt : List Char) (k : Nat) :
    (inside done n o opt k).current = o := by
  unfold inside St.current
  simp only
  rw [if_neg hd, get?_last h]
  rfl

theorem inside_put {done : PyDict (List Char) Opts} {n : List Char} (h : n ∉ keys done) (hd : n ≠ defaultName) (o : Opts) (opt : List Char) (k : Nat)
    (name : List Char) (ls : List (List Char)) : (inside done n o opt k).put name ls = inside done n (set o name ls) opt k := by
  unfold St.put
  rw [inside_current h hd]
  unfold inside
  simp only
  rw [if_neg hd, set_last h]

theorem splitEq_trim {name s s' v : List Char} (hn : '=' ∉ name) (hs : Blank s) : splitEq (name ++ (s ++ '=' :: (s' ++ v))) = some (name ++ s, s' ++ v) := by
  rw [← List.append_assoc]
  apply KappaCfg.splitEq_at
  intro h
  rcases List.mem_append.1 h with h | h
  · exact hn h
  · have := hs _ h
    exact absurd this (by decide)

theorem strip_front {s v : List Char} (hs : Blank s) (hv : Trim v) : Loader.strip (s ++ v) = v := by
  by_cases h : v = []
  · subst h; rw [List.append_nil]; exact strip_blank hs
  · have := strip_trim (b := []) hs h hv (by simp [Blank])
    simpa using this

theorem headerOf_not {c : List Char} (ht : Trim c) (h : c.head? ≠ some '[') : KappaCfg.headerOf c = none := by
  cases hh : KappaCfg.headerOf c with
  | none => rfl
  | some n =>
    obtain ⟨ind, s, s', rest, e, hi, -⟩ := KappaCfg.headerOf_isSome_mem hh
    cases ind with
    | nil => rw [e] at h; simp at h
    | cons d ind =>
      have := ht.1 d (by rw [e]; rfl)
      rw [hi d (by simp)] at this
      cases this

theorem step_option {done : PyDict (List Char) Opts} {n : List Char} (h : n ∉ keys done) (hd : n ≠ defaultName) {o : Opts} {opt : List Char} {j k : Nat}
    (hj : opt = [] ∨ j = k) {name v line : List Char} (hl : OptionLine k name v line) (hnew : name ∉ keys o) :
    (inside done n o opt j).step line = .ok (inside done n (o ++ [(name, [v])]) name k) := by
  obtain ⟨s, s', hsh, hs, hs', hne, htn, htv, heq, hbr⟩ := hl
  rw [step_shows hsh, if_neg]
  · have e1 : { inside done n o opt j with indent := k } = inside done n o opt k := rfl
    rw [e1]
    unfold St.fresh
    have hc : Trim (name ++ (s ++ '=' :: (s' ++ v))) := by
      obtain ⟨ind, tail, -, -, -, -, ht, -⟩ := hsh
      exact ht
    rw [headerOf_not hc (by
      cases name with
      | nil => exact absurd rfl hne
      | cons d name => simpa using hbr)]
    simp only
    rw [if_neg (by unfold inside; simp), splitEq_trim heq hs]
    simp only
    rw [rstrip_trim htn.2 hs, strip_front hs' htv]
    unfold St.define
    rw [inside_current h hd, if_neg (by rw [has_iff]; exact hnew), inside_put h hd, set_of_not_mem hnew]
    unfold inside
    simp only
    cases name with
    | nil => exact absurd rfl hne
    | cons d name => rfl
  · rintro ⟨-, h2, h3⟩
    rcases hj with hj | hj
    · exact h2 hj
    · unfold inside at h3
      simp only at h3
      omega

theorem append_last {done : PyDict (List Char) Opts} {n : List Char} (h : n ∉ keys done) (hd : n ≠ defaultName) {o : Opts} {name : List Char} {k : Nat}
    (hnew : name ∉ keys o) (ls : List (List Char)) (v : List Char) :
    (inside done n (o ++ [(name, ls)]) name k).append v = inside done n (o ++ [(name, ls ++ [v])]) name k := by
  unfold St.append
  rw [inside_put h hd, inside_current h hd]
  have : (inside done n (o ++ [(name, ls)]) name k).opt = name := rfl
  rw [this, get?_last hnew, set_last hnew]
  rfl

theorem run_more {done : PyDict (List Char) Opts} {n : List Char} (h : n ∉ keys done) (hd : n ≠ defaultName) {o : Opts} {name : List Char} {k : Nat}
    (hne : name ≠ []) (hnew : name ∉ keys o) {ls : List (List Char)} {adds : List (List (List Char))} (hm : List.Forall₂ (MoreLine k) ls adds) (vs : List (List Char)) :
    (inside done n (o ++ [(name, vs)]) name k).run ls = .ok (inside done n (o ++ [(name, vs ++ adds.flatten)]) name k) := by
  induction hm generalizing vs with
  | nil => simp [St.run]
  | @cons l add ls adds h1 _ ih =>
    have hs : (inside done n (o ++ [(name, vs)]) name k).step l = .ok (inside done n (o ++ [(name, vs ++ add)]) name k) := by
      rcases h1 with ⟨hc, rfl⟩ | ⟨hb, rfl⟩ | ⟨c, k', hsh, hlt, rfl⟩
      · rw [step_comment hc, List.append_nil]
      · rw [step_blank hb, if_pos, append_last h hd hnew]
        exact ⟨by unfold inside; simp, hne⟩
      · rw [step_shows hsh, if_pos, append_last h hd hnew]
        exact ⟨by unfold inside; simp, hne, hlt⟩
    rw [St.run, hs]
    simp only
    rw [ih, List.append_assoc, List.flatten_cons]

/-- the lines of the values as the reader holds them -/
def Holds (opts : List (List Char × List Char)) (o : Opts) : Prop := List.Forall₂ (fun p q => p.1 = q.1 ∧ p.2 = joined q.2) opts o

theorem Holds.keys {opts : List (List Char × List Char)} {o : Opts} (h : Holds opts o) : keys o = opts.map Prod.fst := by
  induction h with
  | nil => rfl
  | cons h1 _ ih => rw [keys_cons, List.map_cons, ih, h1.1]

theorem Holds.values {opts : List (List Char × List Char)} {o : Opts} (h : Holds opts o) : values o = opts := by
  induction h with
  | nil => rfl
  | @cons p q _ _ h1 _ ih =>
    unfold CfgText.values at ih ⊢
    rw [List.map_cons, ih, ← h1.1, ← h1.2]

theorem run_block {done : PyDict (List Char) Opts} {n : List Char} (h : n ∉ keys done) (hd : n ≠ defaultName) {o : Opts} {opt : List Char} {j k : Nat}
    (hj : opt = [] ∨ j = k) {p : List Char × List Char} {lines : List (List Char)} (hb : OptionBlock k p lines) (hnew : p.1 ∉ keys o) :
    ∃ vs, (inside done n o opt j).run lines = .ok (inside done n (o ++ [(p.1, vs)]) p.1 k) ∧ p.2 = joined vs := by
  obtain ⟨l, ls, v, adds, t, rfl, hl, hm, he, ht, hlast⟩ := hb
  refine ⟨v :: adds.flatten, ?_, ?_⟩
  · rw [St.run, step_option h hd hj hl hnew]
    simp only
    have hne : p.1 ≠ [] := by obtain ⟨_, _, _, _, _, hne, _⟩ := hl; exact hne
    rw [run_more h hd hne hnew hm]
    rfl
  · unfold joined
    rw [he, rstrip_trim hlast ht]

theorem run_blocks {done : PyDict (List Char) Opts} {n : List Char} (h : n ∉ keys done) (hd : n ≠ defaultName) {k : Nat}
    {opts : List (List Char × List Char)} {blocks : List (List (List Char))} (hb : List.Forall₂ (OptionBlock k) opts blocks) :
    ∀ {o : Opts} {opt : List Char} {j : Nat}, (opt = [] ∨ j = k) → (opts.map Prod.fst).Nodup → (∀ p ∈ opts, p.1 ∉ keys o) →
    ∃ o' opt' j', (inside done n o opt j).run blocks.flatten = .ok (inside done n (o ++ o') opt' j') ∧ Holds opts o' := by
  induction hb with
  | nil => intro o opt j _ _ _; exact ⟨[], opt, j, by simp [St.run], .nil⟩
  | @cons p b opts blocks h1 _ ih =>
    intro o opt j hj hn hk
    obtain ⟨vs, e, hv⟩ := run_block h hd hj h1 (hk p (by simp))
    rw [List.map_cons, List.nodup_cons] at hn
    obtain ⟨o', opt', j', e', ho'⟩ := ih (o := o ++ [(p.1, vs)]) (opt := p.1) (j := k) (.inr rfl) hn.2 (by
      intro q hq hm
      rw [keys_append, List.mem_append] at hm
      rcases hm with hm | hm
      · exact hk q (by simp [hq]) hm
      · simp only [keys_cons, keys_nil, List.mem_singleton] at hm
        exact hn.1 (by rw [← hm]; exact List.mem_map_of_mem hq))
    refine ⟨(p.1, vs) :: o', opt', j', ?_, .cons ⟨rfl, hv⟩ ho'⟩
    rw [List.flatten_cons, run_append, e]
    simp only
    rw [e', List.append_assoc]
    rfl

theorem run_junk {junk : List (List Char)} (h : Junk junk) (s : St) (hs : s.sect = none ∨ s.opt = []) : s.run junk = .ok s := by
  induction junk with
  | nil => rfl
  | cons l junk ih =>
    have : s.step l = .ok s := by
      rcases h l (by simp) with h | h
      · exact step_comment h s
      · rw [step_blank h, if_neg]
        rintro ⟨h1, h2⟩
        rcases hs with hs | hs
        · exact h1 hs
        · exact h2 hs
    rw [St.run, this]
    exact ih fun l hl => h l (by simp [hl])

/-- the reader between two sections: `done` are the sections read -/
def Between (done : PyDict (List Char) Opts) (s : St) : Prop :=
  s.sections = done ∧ s.defaults = [] ∧ s.bad = false

theorem run_section {sect : List Char × List (List Char × List Char)} {lines : List (List Char)} (hb : SectionBlock sect lines)
    {done : PyDict (List Char) Opts} {s : St} (hs : Between done s) (hnew : sect.1 ∉ keys done) :
    ∃ o s', s.run lines = .ok s' ∧ Between (done ++ [(sect.1, o)]) s' ∧ Holds sect.2 o := by
  obtain ⟨h, junk, k, blocks, rfl, hh, hjunk, hblocks, hnodup, hdef⟩ := hb
  obtain ⟨s1, s2, rest, hsh, hs1, hs2, hne, hbr, hfst, hlst⟩ := hh
  obtain ⟨e1, e2, e3⟩ := hs
  have hstep : s.step h = .ok (inside done sect.1 [] [] 0) := by
    rw [step_shows hsh, if_neg (fun hc => by omega)]
    unfold St.fresh
    have := KappaCfg.headerOf_name' (ind := []) (s := s1) (n := sect.1) (s' := s2) (rest := rest) (by simp [Blank]) hs1 hs2 hne hbr hfst hlst
    rw [List.nil_append] at this
    rw [this]
    simp only
    unfold St.enter
    simp only
    rw [e1, if_neg (by rw [has_iff]; exact hnew), if_neg (show ¬ sect.1 = defaultName from hdef), set_of_not_mem hnew]
    unfold inside
    rw [e2, e3]
  rw [St.run, hstep]
  simp only
  rw [run_append, run_junk hjunk _ (.inr rfl)]
  simp only
  obtain ⟨o, opt, j, e, ho⟩ := run_blocks hnew hdef hblocks (o := []) (opt := []) (j := 0) (.inl rfl) hnodup (by intro p _; simp)
  refine ⟨o, _, e, ⟨?_, rfl, rfl⟩, ho⟩
  unfold inside
  simp

/-- **C121** The configuration a file shows is the one read: sections and options in their order, every value with all its lines.  Comments,
empty lines, blanks around names and values and the depth of the indentation do not matter. -/
theorem C121_reads (cfg : List (List Char × List (List Char × List Char))) (lines : List (List Char)) (h : FileShows cfg lines) :
    readCfg lines = .ok { sections := cfg, defaults := [] } := by
  obtain ⟨junk, blocks, rfl, hjunk, hblocks, hnodup⟩ := h
  have key : ∀ {cfg : List (List Char × List (List Char × List Char))} {blocks : List (List (List Char))}, List.Forall₂ SectionBlock cfg blocks →
      ∀ (done : PyDict (List Char) Opts) (s : St), Between done s → (cfg.map Prod.fst).Nodup → (∀ p ∈ cfg, p.1 ∉ keys done) →
      ∃ more s', s.run blocks.flatten = .ok s' ∧ Between (done ++ more) s' ∧ more.map (fun p => (p.1, values p.2)) = cfg := by
    intro cfg blocks hb
    induction hb with
    | nil => intro done s hs _ _; exact ⟨[], s, rfl, by simpa using hs, rfl⟩
    | @cons sect b cfg blocks h1 _ ih =>
      intro done s hs hn hk
      obtain ⟨o, s', e, hs', ho⟩ := run_section h1 hs (hk sect (by simp))
      rw [List.map_cons, List.nodup_cons] at hn
      obtain ⟨more, s'', e', hs'', hv⟩ := ih _ s' hs' hn.2 (by
        intro q hq hm
        rw [keys_append, List.mem_append] at hm
        rcases hm with hm | hm
        · exact hk q (by simp [hq]) hm
        · simp only [keys_cons, keys_nil, List.mem_singleton] at hm
          exact hn.1 (by rw [← hm]; exact List.mem_map_of_mem hq))
      refine ⟨(sect.1, o) :: more, s'', ?_, ?_, ?_⟩
      · rw [List.flatten_cons, run_append, e]
        exact e'
      · rw [List.append_assoc] at hs''
        exact hs''
      · rw [List.map_cons, hv, ho.values]
  obtain ⟨more, s', e, ⟨h1, h2, h3⟩, hv⟩ := key hblocks [] St.start ⟨rfl, rfl, rfl⟩ hnodup (by intro p _; simp)
  unfold readCfg
  rw [run_append, run_junk hjunk _ (.inl rfl)]
  simp only
  rw [e]
  simp only
  unfold St.finish
  rw [h3, h1, h2, List.nil_append, hv]
  rfl

/-- **C121** A file shows at most one configuration. -/
theorem C121_unique (cfg cfg' : List (List Char × List (List Char × List Char))) (lines : List (List Char)) (h : FileShows cfg lines) (h' : FileShows cfg' lines) :
    cfg = cfg' := by
  have e := C121_reads cfg lines h
  rw [C121_reads cfg' lines h'] at e
  simpa using e.symm

/-! ## Files that are refused -/

theorem put_sections (s : St) (name : List Char) (ls : List (List Char)) (h : List Char) (hh : h ∈ keys s.sections) : h ∈ keys (s.put name ls).sections := by
  unfold St.put
  split
  · exact hh
  · split
    · exact hh
    · exact (mem_keys_set _ _ _ _).2 (.inr hh)

theorem put_bad (s : St) (name : List Char) (ls : List (List Char)) : (s.put name ls).bad = s.bad := by
  unfold St.put
  split
  · rfl
  · split <;> rfl

theorem fresh_mono {s s' : St} {v : List Char} (h : s.fresh v = .ok s') : (s.bad = true → s'.bad = true) ∧ ∀ n, n ∈ keys s.sections → n ∈ keys s'.sections := by
  unfold St.fresh at h
  split at h
  · unfold St.enter at h
    split at h
    · cases h
    · split at h
      · cases h; exact ⟨id, fun _ => id⟩
      · cases h; exact ⟨id, fun n hn => (mem_keys_set _ _ _ _).2 (.inr hn)⟩
  · split at h
    · cases h
    · split at h
      · cases h; exact ⟨fun _ => rfl, fun _ => id⟩
      · unfold St.define at h
        split at h
        · cases h
        · cases h
          exact ⟨fun hb => by simp [hb], fun n hn => put_sections _ _ _ _ hn⟩

theorem step_mono {s s' : St} {l : List Char} (h : s.step l = .ok s') : (s.bad = true → s'.bad = true) ∧ ∀ n, n ∈ keys s.sections → n ∈ keys s'.sections := by
  unfold St.step at h
  simp only at h
  split at h
  · split at h
    · cases h
      exact ⟨fun hb => by unfold St.append; rw [put_bad]; exact hb, fun n hn => put_sections _ _ _ _ hn⟩
    · cases h; exact ⟨id, fun _ => id⟩
  · split at h
    · cases h
      exact ⟨fun hb => by unfold St.append; rw [put_bad]; exact hb, fun n hn => put_sections _ _ _ _ hn⟩
    · exact fresh_mono (s := { s with indent := indentOf l }) h

theorem run_mono {s s' : St} {ls : List (List Char)} (h : s.run ls = .ok s') : (s.bad = true → s'.bad = true) ∧ ∀ n, n ∈ keys s.sections → n ∈ keys s'.sections := by
  induction ls generalizing s with
  | nil => cases h; exact ⟨id, fun _ => id⟩
  | cons l ls ih =>
    rw [St.run] at h
    cases hs : s.step l with
    | error e => rw [hs] at h; cases h
    | ok s1 =>
      rw [hs] at h
      obtain ⟨a, b⟩ := step_mono hs
      obtain ⟨a', b'⟩ := ih h
      exact ⟨fun hb => a' (a hb), fun n hn => b' n (b n hn)⟩

theorem run_split {s s' : St} {a : List (List Char)} {l : List Char} {b : List (List Char)} (h : s.run (a ++ l :: b) = .ok s') :
    ∃ s1 s2, s.run a = .ok s1 ∧ s1.step l = .ok s2 ∧ s2.run b = .ok s' := by
  rw [run_append] at h
  cases h1 : s.run a with
  | error e => rw [h1] at h; cases h
  | ok s1 =>
    rw [h1] at h
    simp only [St.run] at h
    cases h2 : s1.step l with
    | error e => rw [h2] at h; cases h
    | ok s2 =>
      rw [h2] at h
      exact ⟨s1, s2, rfl, h2, h⟩

theorem step_header {n l : List Char} (h : HeaderLine n l) (s : St) : s.step l = { s with indent := 0 }.enter n := by
  obtain ⟨s1, s2, rest, hsh, hs1, hs2, hne, hbr, hfst, hlst⟩ := h
  rw [step_shows hsh, if_neg (fun hc => by omega)]
  unfold St.fresh
  have := KappaCfg.headerOf_name' (ind := []) (s := s1) (n := n) (s' := s2) (rest := rest) (by simp [Blank]) hs1 hs2 hne hbr hfst hlst
  rw [List.nil_append] at this
  rw [this]

/-- **C121** No section may be given twice: a file with two headers of the same name is refused. -/
theorem C121_twice (a b c : List (List Char)) (n h h' : List Char) (hd : n ≠ "DEFAULT".toList) (hh : HeaderLine n h) (hh' : HeaderLine n h') (p : Parsed) :
    readCfg (a ++ h :: (b ++ h' :: c)) ≠ .ok p := by
  intro hr
  unfold readCfg at hr
  cases hrun : St.start.run (a ++ h :: (b ++ h' :: c)) with
  | error e => rw [hrun] at hr; cases hr
  | ok s' =>
    obtain ⟨s1, s2, -, e2, e3⟩ := run_split hrun
    obtain ⟨s3, s4, e4, e5, -⟩ := run_split e3
    have hin : n ∈ keys s2.sections := by
      rw [step_header hh] at e2
      unfold St.enter at e2
      split at e2
      · cases e2
      · rw [if_neg (show ¬ n = defaultName from hd)] at e2
        cases e2
        exact (mem_keys_set _ _ _ _).2 (.inl rfl)
    have hin' := (run_mono e4).2 n hin
    rw [step_header hh'] at e5
    unfold St.enter at e5
    rw [if_pos ((has_iff _ _).2 hin')] at e5
    cases e5

/-- **C121** A line at the left margin that is neither a header nor has a `=` makes the reading fail. -/
theorem C121_stray (a b : List (List Char)) (c l : List Char) (h : Shows 0 c l) (hb : c.head? ≠ some '[') (heq : '=' ∉ c) (p : Parsed) :
    readCfg (a ++ l :: b) ≠ .ok p := by
  intro hr
  unfold readCfg at hr
  cases hrun : St.start.run (a ++ l :: b) with
  | error e => rw [hrun] at hr; cases hr
  | ok s' =>
    obtain ⟨s1, s2, -, e2, e3⟩ := run_split hrun
    have ht : Trim c := by obtain ⟨_, _, _, _, _, _, ht, _⟩ := h; exact ht
    have hsp : splitEq c = none := by
      clear h hb ht e2 e3 hrun hr
      induction c with
      | nil => rfl
      | cons d c ih =>
        simp only [List.mem_cons, not_or] at heq
        rw [splitEq, if_neg (fun e => heq.1 e.symm), ih heq.2]
        rfl
    rw [step_shows h, if_neg (fun hc => by omega)] at e2
    unfold St.fresh at e2
    rw [headerOf_not ht hb, hsp] at e2
    simp only at e2
    have hbad : s2.bad = true := by
      split at e2
      · cases e2
      · cases e2; rfl
    have := (run_mono e3).1 hbad
    rw [hrun] at hr
    simp only [St.finish, this, if_true] at hr
    cases hr

/-- **C121** Anything before the first header, apart from comments and empty lines, is an error. -/
theorem C121_header_first (junk rest : List (List Char)) (hj : Junk junk) (k : Nat) (c l : List Char) (h : Shows k c l) (hb : c.head? ≠ some '[') :
    readCfg (junk ++ l :: rest) = .error .missingHeader := by
  have ht : Trim c := by obtain ⟨_, _, _, _, _, _, ht, _⟩ := h; exact ht
  unfold readCfg
  rw [run_append, run_junk hj _ (.inl rfl)]
  simp only [St.run]
  rw [step_shows h, if_neg (by rintro ⟨h, -⟩; exact h rfl)]
  unfold St.fresh
  rw [headerOf_not ht hb]
  rfl

/-! ## Every line is of one kind -/

theorem cut_rest (x : List Char) (prev : Option Char) :
    cutComment prev (cutComment prev x) = cutComment prev x ∧
      ∃ r, x = cutComment prev x ++ r ∧ (r = [] ∨ ∃ r', r = '#' :: r' ∧ ∀ d, ((cutComment prev x).getLast?).or prev = some d → pySpace d = true) := by
  induction x generalizing prev with
  | nil => exact ⟨rfl, [], rfl, .inl rfl⟩
  | cons c x ih =>
    rw [cutComment]
    split
    · rename_i h
      refine ⟨rfl, c :: x, rfl, .inr ⟨x, by rw [h.1], fun d hd => h.2 d (by simpa using hd)⟩⟩
    · rename_i h
      obtain ⟨h1, r, h2, h3⟩ := ih (some c)
      refine ⟨by rw [cutComment, if_neg h, h1], r, by rw [List.cons_append, ← h2], ?_⟩
      rcases h3 with h3 | ⟨r', h3, h4⟩
      · exact .inl h3
      · refine .inr ⟨r', h3, fun d hd => h4 d ?_⟩
        cases hx : cutComment (some c) x with
        | nil => rw [hx] at hd; simpa using hd
        | cons e y =>
          rw [hx, List.getLast?_cons_cons] at hd
          cases hy : (e :: y).getLast? with
          | none => simp at hy
          | some f => rw [hy] at hd; exact hd

theorem noComment_of {x : List Char} (prev : Option Char) (h : cutComment prev x = x) :
    ∀ a b, x = a ++ '#' :: b → ∃ d, (a.getLast?).or prev = some d ∧ pySpace d = false := by
  induction x generalizing prev with
  | nil => intro a b e; simp at e
  | cons c x ih =>
    rw [cutComment] at h
    split at h
    · cases h
    · rename_i hc
      simp only [List.cons.injEq, true_and] at h
      intro a b e
      cases a with
      | nil =>
        simp only [List.nil_append, List.cons.injEq] at e
        rw [not_and] at hc
        have := hc e.1
        push Not at this
        obtain ⟨d, hd, hs⟩ := this
        exact ⟨d, by simpa using hd, by simpa using hs⟩
      | cons c' a =>
        simp only [List.cons_append, List.cons.injEq] at e
        obtain ⟨d, hd, hs⟩ := ih (some c) h a b e.2
        refine ⟨d, ?_, hs⟩
        rw [← e.1]
        cases a with
        | nil => exact hd
        | cons e' a => rw [List.getLast?_cons_cons]; cases ha : (e' :: a).getLast? with
          | none => simp at ha
          | some f => rw [ha] at hd; exact hd

theorem dropWhile_head (x : List Char) (d : Char) (h : (x.dropWhile pySpace).head? = some d) : pySpace d = false := by
  induction x with
  | nil => cases h
  | cons c x ih =>
    rw [List.dropWhile_cons] at h
    split at h
    · exact ih h
    · rename_i hc
      cases h
      simpa using hc

theorem strip_ends (x : List Char) : Trim (Loader.strip x) := by
  have hl : ∀ y : List Char, ∀ d, (Loader.rstrip y).getLast? = some d → pySpace d = false := by
    intro y d h
    unfold Loader.rstrip at h
    rw [List.getLast?_reverse] at h
    exact dropWhile_head _ _ h
  refine ⟨fun d h => ?_, fun d h => hl _ d h⟩
  unfold Loader.strip at h
  obtain ⟨b, hb⟩ : ∃ b, x.dropWhile pySpace = Loader.rstrip (x.dropWhile pySpace) ++ b := by
    refine ⟨((x.dropWhile pySpace).reverse.takeWhile pySpace).reverse, ?_⟩
    unfold Loader.rstrip
    rw [← List.reverse_append, List.takeWhile_append_dropWhile, List.reverse_reverse]
  apply dropWhile_head x
  rw [hb]
  cases hr : Loader.rstrip (x.dropWhile pySpace) with
  | nil => rw [hr] at h; cases h
  | cons e y => rw [hr] at h; exact h

/-- **C121** Every line is a comment line, or blank, or shows one text at one indentation. -/
theorem C121_lines (line : List Char) : CommentLine line ∨ Blank line ∨ ∃ k c, Shows k c line := by
  obtain ⟨h1, r, h2, h3⟩ := cut_rest line none
  obtain ⟨ind, b, e, hi, hb⟩ := KappaCfg.strip_split (cutComment none line)
  have ht := strip_ends (cutComment none line)
  set cut := cutComment none line with hcut
  set c := Loader.strip cut with hcd
  by_cases hc : c = []
  · have hbl : Blank cut := by
      rw [e, hc]
      intro d hd
      rcases List.mem_append.1 hd with h | h
      · exact hi d h
      · exact hb d (by simpa using h)
    rcases h3 with rfl | ⟨r', rfl, -⟩
    · exact .inr (.inl (by rw [h2, List.append_nil]; exact hbl))
    · exact .inl ⟨cut, r', h2, hbl⟩
  · refine .inr (.inr ⟨ind.length, c, ind, b ++ r, ?_, hi, rfl, hc, ht, ?_, ?_⟩)
    · conv_lhs => rw [h2, e]
      simp
    · intro x y hxy
      obtain ⟨d, hd, hs⟩ := noComment_of none h1 (ind ++ x) (y ++ b) (by rw [e, hxy]; simp)
      refine ⟨d, ?_, hs⟩
      rw [Option.or_none] at hd
      by_cases hx : x = []
      · subst hx
        rw [List.append_nil] at hd
        rw [hi d (List.mem_of_getLast? hd)] at hs
        cases hs
      · rwa [List.getLast?_append_of_ne_nil _ hx] at hd
    · rcases h3 with rfl | ⟨r', rfl, h4⟩
      · exact .inl (by rw [List.append_nil]; exact hb)
      · right
        have hne : b ≠ [] := by
          rintro rfl
          rw [List.append_nil] at e
          have hl : cut.getLast? = c.getLast? := by rw [e, List.getLast?_append_of_ne_nil _ hc]
          obtain ⟨d, hd⟩ : ∃ d, c.getLast? = some d := by
            cases hx : c.getLast? with
            | none => exact absurd (List.getLast?_eq_none_iff.1 hx) hc
            | some d => exact ⟨d, rfl⟩
          have := h4 d (by rw [hl, hd]; rfl)
          rw [ht.2 d hd] at this
          cases this
        refine ⟨b.dropLast, b.getLast hne, r', ?_, fun d hd => hb d (List.dropLast_subset _ hd), hb _ (List.getLast_mem hne)⟩
        rw [show b.dropLast ++ b.getLast hne :: '#' :: r' = (b.dropLast ++ [b.getLast hne]) ++ '#' :: r' by simp, List.dropLast_append_getLast]

/-! ## Options given twice -/

theorem put_sect (s : St) (name : List Char) (ls : List (List Char)) : (s.put name ls).sect = s.sect := by
  unfold St.put
  split
  · rfl
  · split <;> rfl

theorem put_current {s : St} (h : s.sect ≠ none) (name : List Char) (ls : List (List Char)) : (s.put name ls).current = PyDict.set s.current name ls := by
  obtain ⟨n, hn⟩ := Option.ne_none_iff_exists'.1 h
  unfold St.put
  rw [hn]
  simp only
  by_cases hd : n = defaultName
  · rw [if_pos hd]
    unfold St.current
    simp only [hn, if_pos hd]
  · rw [if_neg hd]
    conv_lhs => unfold St.current
    simp only [hn, if_neg hd]
    rw [get?_set, if_pos rfl]
    simp only [Option.getD_some, St.current, hn, if_neg hd]

/-- steps within a section -/
theorem step_within {s s' : St} {l : List Char} (h : s.step l = .ok s') (hs : s.sect ≠ none) (hl : ∀ k c, Shows k c l → c.head? ≠ some '[') :
    s'.sect = s.sect ∧ ∀ n, n ∈ keys s.current → n ∈ keys s'.current := by
  have hput : ∀ t : St, t.sect = s.sect → t.current = s.current → ∀ name ls, (t.put name ls).sect = s.sect ∧ ∀ n, n ∈ keys s.current → n ∈ keys (t.put name ls).current := by
    intro t h1 h2 name ls
    refine ⟨(put_sect _ _ _).trans h1, fun n hn => ?_⟩
    rw [put_current (by rw [h1]; exact hs), h2]
    exact (mem_keys_set _ _ _ _).2 (.inr hn)
  rcases C121_lines l with hc | hb | ⟨k, c, hc⟩
  · rw [step_comment hc] at h; cases h; exact ⟨rfl, fun _ => id⟩
  · rw [step_blank hb] at h
    cases h
    split
    · exact hput s rfl rfl _ _
    · exact ⟨rfl, fun _ => id⟩
  · rw [step_shows hc] at h
    split at h
    · cases h; exact hput s rfl rfl _ _
    · have ht : Trim c := by obtain ⟨_, _, _, _, _, _, ht, _⟩ := hc; exact ht
      unfold St.fresh at h
      rw [headerOf_not ht (hl k c hc)] at h
      simp only at h
      rw [if_neg hs] at h
      split at h
      · cases h; exact ⟨rfl, fun _ => id⟩
      · unfold St.define at h
        split at h
        · cases h
        · cases h
          have := hput { s with indent := k } rfl rfl
          exact this _ _

theorem run_within {s s' : St} {ls : List (List Char)} (h : s.run ls = .ok s') (hs : s.sect ≠ none) (hl : ∀ l ∈ ls, ∀ k c, Shows k c l → c.head? ≠ some '[') :
    s'.sect = s.sect ∧ ∀ n, n ∈ keys s.current → n ∈ keys s'.current := by
  induction ls generalizing s with
  | nil => cases h; exact ⟨rfl, fun _ => id⟩
  | cons l ls ih =>
    rw [St.run] at h
    cases h1 : s.step l with
    | error e => rw [h1] at h; cases h
    | ok s1 =>
      rw [h1] at h
      obtain ⟨a, b⟩ := step_within h1 hs (hl l List.mem_cons_self)
      obtain ⟨a', b'⟩ := ih h (by rw [a]; exact hs) fun x hx => hl x (List.mem_cons_of_mem _ hx)
      exact ⟨a'.trans a, fun n hn => b' n (b n hn)⟩

theorem step_margin {s s' : St} {name v l : List Char} (hl : OptionLine 0 name v l) (h : s.step l = .ok s') :
    s.sect ≠ none ∧ name ∉ keys s.current ∧ s'.sect = s.sect ∧ name ∈ keys s'.current := by
  obtain ⟨b, b', hsh, hs, hs', hne, htn, htv, heq, hbr⟩ := hl
  have ht : Trim (name ++ (b ++ '=' :: (b' ++ v))) := by obtain ⟨_, _, _, _, _, _, ht, _⟩ := hsh; exact ht
  rw [step_shows hsh, if_neg (fun h => by omega)] at h
  unfold St.fresh at h
  rw [headerOf_not ht (by
      cases name with
      | nil => exact absurd rfl hne
      | cons d name => simpa using hbr)] at h
  simp only at h
  split at h
  · cases h
  · rename_i hsec
    rw [splitEq_trim heq hs] at h
    simp only at h
    rw [rstrip_trim htn.2 hs] at h
    unfold St.define at h
    split at h
    · cases h
    · rename_i hh
      rw [has_iff] at hh
      cases h
      refine ⟨hsec, hh, put_sect { s with indent := 0 } _ _, ?_⟩
      have := put_current (s := { s with indent := 0 }) hsec name [Loader.strip (b' ++ v)]
      have h2 : name ∈ keys (({ s with indent := 0 }.put name [Loader.strip (b' ++ v)]).current) := by
        rw [this]; exact (mem_keys_set _ _ _ _).2 (.inl rfl)
      exact h2

/-- **C121** No option may be given twice in a section: a file with two lines setting the same name, and no header between them, is refused. -/
theorem C121_option_twice (a b c : List (List Char)) (name v v' l l' : List Char) (hl : OptionLine 0 name v l) (hl' : OptionLine 0 name v' l')
    (hb : ∀ x ∈ b, ∀ k t, Shows k t x → t.head? ≠ some '[') (p : Parsed) : readCfg (a ++ l :: (b ++ l' :: c)) ≠ .ok p := by
  intro hr
  unfold readCfg at hr
  cases hrun : St.start.run (a ++ l :: (b ++ l' :: c)) with
  | error e => rw [hrun] at hr; cases hr
  | ok s' =>
    obtain ⟨s1, s2, -, e2, e3⟩ := run_split hrun
    obtain ⟨s3, s4, e4, e5, -⟩ := run_split e3
    obtain ⟨h1, -, h2, h3⟩ := step_margin hl e2
    obtain ⟨-, h4⟩ := run_within e4 (by rw [h2]; exact h1) hb
    obtain ⟨-, h5, -⟩ := step_margin hl' e5
    exact h5 (h4 _ h3)

/-! ## Names are distinct -/

/-- no name twice -/
def Distinct (s : St) : Prop := WF s.sections ∧ (∀ p ∈ s.sections, WF p.2) ∧ WF s.defaults

theorem current_wf {s : St} (h : Distinct s) : WF s.current := by
  unfold St.current
  split
  · exact WF_nil
  · split
    · exact h.2.2
    · rename_i n _ _
      cases hg : get? s.sections n with
      | none => exact WF_nil
      | some o => exact h.2.1 _ (get?_mem hg)

theorem mem_set {κ ν : Type} [DecidableEq κ] {d : PyDict κ ν} {k : κ} {v : ν} {p : κ × ν} (h : p ∈ PyDict.set d k v) : p.2 = v ∨ p ∈ d := by
  induction d with
  | nil => rw [PyDict.set, List.mem_singleton] at h; subst h; exact .inl rfl
  | cons q d ih =>
    obtain ⟨k', v'⟩ := q
    rw [PyDict.set] at h
    split at h
    · rcases List.mem_cons.1 h with rfl | h
      · exact .inl rfl
      · exact .inr (by simp [h])
    · rcases List.mem_cons.1 h with rfl | h
      · exact .inr (by simp)
      · rcases ih h with h | h
        · exact .inl h
        · exact .inr (by simp [h])

theorem put_distinct {s : St} (h : Distinct s) (name : List Char) (ls : List (List Char)) : Distinct (s.put name ls) := by
  unfold St.put
  split
  · exact h
  · split
    · exact ⟨h.1, h.2.1, h.2.2.set _ _⟩
    · refine ⟨h.1.set _ _, fun p hp => ?_, h.2.2⟩
      rcases mem_set hp with e | hp
      · rw [e]; exact (current_wf h).set _ _
      · exact h.2.1 p hp

theorem step_distinct {s s' : St} {l : List Char} (h : Distinct s) (hs : s.step l = .ok s') : Distinct s' := by
  unfold St.step at hs
  simp only at hs
  split at hs
  · split at hs
    · cases hs; exact put_distinct h _ _
    · cases hs; exact h
  · split at hs
    · cases hs; exact put_distinct h _ _
    · unfold St.fresh at hs
      split at hs
      · unfold St.enter at hs
        split at hs
        · cases hs
        · split at hs
          · cases hs; exact h
          · cases hs
            refine ⟨WF.set h.1 _ _, fun p hp => ?_, h.2.2⟩
            rcases mem_set hp with e | hp
            · rw [e]; exact WF_nil
            · exact h.2.1 p hp
      · split at hs
        · cases hs
        · split at hs
          · cases hs; exact h
          · unfold St.define at hs
            split at hs
            · cases hs
            · cases hs
              have := put_distinct (s := { s with indent := indentOf l }) h
              exact this _ _

theorem run_distinct {s s' : St} {ls : List (List Char)} (h : Distinct s) (hs : s.run ls = .ok s') : Distinct s' := by
  induction ls generalizing s with
  | nil => cases hs; exact h
  | cons l ls ih =>
    rw [St.run] at hs
    cases h1 : s.step l with
    | error e => rw [h1] at hs; cases hs
    | ok s1 => rw [h1] at hs; exact ih (step_distinct h h1) hs

/-- **C121** Whatever file is accepted: no two sections have the same name, no two options of a section have. -/
theorem C121_distinct (lines : List (List Char)) (p : Parsed) (h : readCfg lines = .ok p) :
    (p.sections.map Prod.fst).Nodup ∧ ∀ s ∈ p.sections, (s.2.map Prod.fst).Nodup := by
  unfold readCfg at h
  cases hr : St.start.run lines with
  | error e => rw [hr] at h; cases h
  | ok s =>
    rw [hr] at h
    obtain ⟨h1, h2, h3⟩ := run_distinct (s := St.start) ⟨WF_nil, by intro p hp; simp [St.start] at hp, WF_nil⟩ hr
    simp only [St.finish] at h
    split at h
    · cases h
    · cases h
      refine ⟨?_, fun q hq => ?_⟩
      · simp only [List.map_map]; exact h1
      · obtain ⟨q', hq', rfl⟩ := List.mem_map.1 hq
        simp only [values, List.map_map]
        exact h2 _ hq'

/-! ## Defaults -/

theorem get?_ofList {ν : Type} (d : PyDict (List Char) ν) (k : List Char) : get? (d.map fun q => (String.ofList q.1, q.2)) (String.ofList k) = get? d k := by
  induction d with
  | nil => rfl
  | cons q d ih =>
    obtain ⟨a, v⟩ := q
    rw [List.map_cons]
    simp only [get?]
    by_cases h : a = k
    · rw [if_pos h, if_pos (by rw [h])]
    · rw [if_neg h, if_neg (fun e => h (String.ofList_injective e)), ih]

/-- **C121** A program asking for an option of a section gets the value given in that section, and the one in `[DEFAULT]` if the section has
none; without `[DEFAULT]` every section has exactly the options written in it. -/
theorem C121_defaults (p : Parsed) (n : List Char) (opts : List (List Char × List Char)) (h : (n, opts) ∈ p.sections) :
    ∃ os, (n, os) ∈ p.items ∧ (∀ o, get? os (String.ofList o) = (get? opts o).or (get? p.defaults o)) ∧
      (p.defaults = [] → os = opts.map fun q => (String.ofList q.1, q.2)) := by
  refine ⟨_, List.mem_cons_of_mem _ (List.mem_map.2 ⟨_, h, rfl⟩), fun o => ?_, fun hd => ?_⟩
  · rw [get?_ofList, get?_append]
    cases hg : get? opts o with
    | some v => rfl
    | none =>
      rw [Option.none_or, Option.none_or, get?_filter_keys p.defaults (fun k => !has opts k) o, if_pos]
      have : has opts o = false := by
        rw [Bool.eq_false_iff]; intro hh
        exact (get?_eq_none _ _).1 hg ((has_iff _ _).1 hh)
      simp [this]
  · rw [hd]; simp

/-! ## A file -/

/-- a file as users write it -/
def demoLines : List (List Char) :=
  ["# kappa".toList, "".toList, "[entry]   # main".toList, "  model = M1 # see below".toList, "  expdata = 300 1.0".toList, "     # comment".toList,
   "     400 0.8".toList, "".toList, "     500 0.6".toList, "[ my section.PH ]".toList, "gm=1.5".toList, "GM = 2#3".toList]

/-- what it shows -/
def demoCfg : List (List Char × List (List Char × List Char)) :=
  [("entry".toList, [("model".toList, "M1".toList), ("expdata".toList, "300 1.0\n400 0.8\n\n500 0.6".toList)]),
   ("my section.PH".toList, [("gm".toList, "1.5".toList), ("GM".toList, "2#3".toList)])]

theorem shows_of (ind c tail : List Char) (h : Blank ind ∧ c ≠ [] ∧ ((c.head?.map pySpace) = some false ∧ (c.getLast?.map pySpace) = some false) ∧ cutComment none c = c)
    (ht : Tail tail) : Shows ind.length c (ind ++ (c ++ tail)) := by
  obtain ⟨h1, h2, ⟨h3, h4⟩, h5⟩ := h
  refine ⟨ind, tail, rfl, h1, rfl, h2, ⟨fun d hd => ?_, fun d hd => ?_⟩, fun a b e => ?_, ht⟩
  · rw [hd] at h3; simpa using h3
  · rw [hd] at h4; simpa using h4
  · obtain ⟨d, hd, hs⟩ := noComment_of none h5 a b e
    exact ⟨d, by simpa using hd, hs⟩

theorem trim_of {c : List Char} (h : (c.head?.map pySpace).getD false = false ∧ (c.getLast?.map pySpace).getD false = false) : Trim c := by
  obtain ⟨h3, h4⟩ := h
  refine ⟨fun d hd => ?_, fun d hd => ?_⟩
  · rw [hd] at h3; simpa using h3
  · rw [hd] at h4; simpa using h4

/-- the lines of the demonstration file are of the kinds described -/
theorem demo_shows : FileShows demoCfg demoLines := by
  refine ⟨["# kappa".toList, []], [["[entry]   # main".toList, "  model = M1 # see below".toList, "  expdata = 300 1.0".toList, "     # comment".toList,
    "     400 0.8".toList, "".toList, "     500 0.6".toList], ["[ my section.PH ]".toList, "gm=1.5".toList, "GM = 2#3".toList]], rfl, ?_, ?_, by decide⟩
  · intro l hl
    rcases List.mem_cons.1 hl with rfl | hl
    · exact .inl ⟨[], " kappa".toList, rfl, by decide⟩
    · rw [List.mem_singleton.1 hl]; exact .inr (by decide)
  · refine .cons ?_ (.cons ?_ .nil)
    · refine ⟨"[entry]   # main".toList, [], 2, [["  model = M1 # see below".toList], ["  expdata = 300 1.0".toList, "     # comment".toList,
        "     400 0.8".toList, "".toList, "     500 0.6".toList]], rfl, ?_, (by intro l hl; cases hl), .cons ?_ (.cons ?_ .nil), by decide, by decide⟩
      · refine ⟨[], [], [], ?_, (by intro c hc; cases hc), (by intro c hc; cases hc), by decide, by decide, by decide, by decide⟩
        exact shows_of [] "[entry]".toList "   # main".toList (by decide +kernel) (.inr ⟨"  ".toList, ' ', " main".toList, rfl, by decide, by decide⟩)
      · refine ⟨"  model = M1 # see below".toList, [], "M1".toList, [], [], rfl, ?_, .nil, rfl, by decide, fun d hd => by cases hd; decide⟩
        refine ⟨" ".toList, " ".toList, ?_, by decide, by decide, by decide, trim_of (by decide), trim_of (by decide), by decide, by decide⟩
        exact shows_of "  ".toList "model = M1".toList " # see below".toList (by decide +kernel) (.inr ⟨[], ' ', " see below".toList, rfl, by decide, by decide⟩)
      · refine ⟨"  expdata = 300 1.0".toList, ["     # comment".toList, "     400 0.8".toList, "".toList, "     500 0.6".toList], "300 1.0".toList,
          [[], ["400 0.8".toList], [[]], ["500 0.6".toList]], [], rfl, ?_, ?_, by decide, by decide, fun d hd => by cases hd; decide⟩
        · refine ⟨" ".toList, " ".toList, ?_, by decide, by decide, by decide, trim_of (by decide), trim_of (by decide), by decide, by decide⟩
          exact shows_of "  ".toList "expdata = 300 1.0".toList [] (by decide +kernel) (.inl (by decide))
        · refine .cons (.inl ⟨⟨"     ".toList, " comment".toList, rfl, by decide⟩, rfl⟩) (.cons (.inr (.inr ⟨_, 5, ?_, by decide, rfl⟩))
            (.cons (.inr (.inl ⟨by decide, rfl⟩)) (.cons (.inr (.inr ⟨_, 5, ?_, by decide, rfl⟩)) .nil)))
          · exact shows_of "     ".toList "400 0.8".toList [] (by decide +kernel) (.inl (by decide))
          · exact shows_of "     ".toList "500 0.6".toList [] (by decide +kernel) (.inl (by decide))
    · refine ⟨"[ my section.PH ]".toList, [], 0, [["gm=1.5".toList], ["GM = 2#3".toList]], rfl, ?_, (by intro l hl; cases hl), .cons ?_ (.cons ?_ .nil), by decide, by decide⟩
      · refine ⟨" ".toList, " ".toList, [], ?_, by decide, by decide, by decide, by decide, by decide, by decide⟩
        exact shows_of [] "[ my section.PH ]".toList [] (by decide +kernel) (.inl (by decide))
      · refine ⟨"gm=1.5".toList, [], "1.5".toList, [], [], rfl, ?_, .nil, rfl, by decide, fun d hd => by cases hd; decide⟩
        refine ⟨[], [], ?_, by decide, by decide, by decide, trim_of (by decide), trim_of (by decide), by decide, by decide⟩
        exact shows_of [] "gm=1.5".toList [] (by decide +kernel) (.inl (by decide))
      · refine ⟨"GM = 2#3".toList, [], "2#3".toList, [], [], rfl, ?_, .nil, rfl, by decide, fun d hd => by cases hd; decide⟩
        refine ⟨" ".toList, " ".toList, ?_, by decide, by decide, by decide, trim_of (by decide), trim_of (by decide), by decide, by decide⟩
        exact shows_of [] "GM = 2#3".toList [] (by decide +kernel) (.inl (by decide))

example : readCfg demoLines = .ok { sections := demoCfg, defaults := [] } := C121_reads _ _ demo_shows
example : readCfg demoLines = .ok { sections := demoCfg, defaults := [] } := by decide +kernel
example : readCfg ["[a]".toList, "x = 1".toList, "[a]".toList] = .error .duplicateSection := by decide +kernel
example : readCfg ["[a]".toList, "x = 1".toList, "x = 2".toList] = .error .duplicateOption := by decide +kernel
example : readCfg ["[a]".toList, "x : 1".toList, "y = 2".toList] = .error .parsing := by decide +kernel
example : readCfg ["[DEFAULT]".toList, "x = 1".toList, "[a]".toList] = .ok { sections := [("a".toList, [])], defaults := [("x".toList, "1".toList)] } := by decide +kernel

end TEflow.CfgText
