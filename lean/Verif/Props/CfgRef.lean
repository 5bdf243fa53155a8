import Verif.Model.CfgRef
import Verif.Spec.CfgRef
import Verif.Props.Instr
import Verif.Props.CfgText

/-! # C136: references in configuration files -/

namespace TEflow.CfgRef

open PyDict CfgText

variable {p : Parsed}

theorem rawGet_iff (s o v : List Char) : rawGet p s o = .ok v ↔ Gives p s o v := by
  unfold rawGet Gives
  cases hs : get? p.sections s with
  | none =>
    by_cases hd : s = defaultName
    · subst hd
      cases hv : get? p.defaults o <;> simp [defaultName]
    · have hd' : s ≠ "DEFAULT".toList := hd
      simp only [if_neg hd]
      constructor
      · intro h; cases h
      · rintro (⟨_, h, _⟩ | ⟨_, h, _⟩)
        · cases h
        · exact absurd h hd'
  | some opts =>
    cases ho : get? opts o <;> cases hv : get? p.defaults o <;> simp [ho]

theorem rawGet_error (s o : List Char) (h : ∀ v, ¬ Gives p s o v) : ∃ e, rawGet p s o = .error e := by
  cases hr : rawGet p s o with
  | error e => exact ⟨e, rfl⟩
  | ok v => exact absurd ((rawGet_iff s o v).mp hr) (h v)

theorem target_iff (s name t o : List Char) :
    target s name = some (t, o) ↔ ((':' ∉ name ∧ t = s ∧ o = name) ∨ (name = t ++ ':' :: o ∧ ':' ∉ t ∧ ':' ∉ o)) := by
  unfold target
  constructor
  · intro h
    obtain ⟨h1, h2, h3⟩ := _root_.TEflow.splitOnChar_pieces ':' name
    generalize Loader.splitOnChar ':' name = ps at h h1 h2 h3
    match ps, h, h1, h2, h3 with
    | [x], h, _, h2, h3 =>
      simp only [Option.some.injEq, Prod.mk.injEq] at h
      simp only [List.intercalate_singleton] at h3
      obtain ⟨rfl, rfl⟩ := h
      subst h3
      exact .inl ⟨h2 x (by simp), rfl, rfl⟩
    | [x, y], h, _, h2, h3 =>
      simp only [Option.some.injEq, Prod.mk.injEq] at h
      obtain ⟨rfl, rfl⟩ := h
      refine .inr ⟨?_, h2 x (by simp), h2 y (by simp)⟩
      rw [← h3]
      simp
  · rintro (⟨h, rfl, rfl⟩ | ⟨rfl, ht, ho⟩)
    · rw [(_root_.TEflow.pieces_iff ':' o [o]).mpr ⟨by simp, by simpa using h, by simp⟩]
    · rw [(_root_.TEflow.pieces_iff ':' (t ++ ':' :: o) [t, o]).mpr ⟨by simp, by simp [ht, ho], by simp⟩]

theorem scan_ref (name r : List Char) (hb : '}' ∉ name) : ∀ acc, acc.reverse ++ name ≠ [] →
    scan (.name acc) (name ++ '}' :: r) = .ref (acc.reverse ++ name) :: scan .plain r := by
  induction name with
  | nil =>
    intro acc h
    have : acc ≠ [] := by rintro rfl; exact h rfl
    simp [scan, this]
  | cons c name ih =>
    intro acc _
    simp only [List.mem_cons, not_or] at hb
    simp only [List.cons_append, scan, if_neg (Ne.symm hb.1)]
    rw [ih hb.2 _ (by simp)]
    simp

theorem scan_refText (name r : List Char) (hb : '}' ∉ name) (hn : name ≠ []) : scan .plain (refText name ++ r) = .ref name :: scan .plain r := by
  have := scan_ref name r hb [] (by simpa using hn)
  simpa [refText, scan] using this

/-- a reference is closed, or refused -/
theorem scan_name_cases : ∀ (r acc : List Char),
    (∃ x r', r = x ++ '}' :: r' ∧ '}' ∉ x ∧ acc.reverse ++ x ≠ [] ∧ scan (.name acc) r = .ref (acc.reverse ++ x) :: scan .plain r') ∨
    scan (.name acc) r = [.bad]
  | [], acc => .inr rfl
  | c :: r, acc => by
    by_cases hc : c = '}'
    · subst hc
      by_cases ha : acc = []
      · exact .inr (by simp [scan, ha])
      · exact .inl ⟨[], r, rfl, by simp, by simpa using ha, by simp [scan, ha]⟩
    · rcases scan_name_cases r (c :: acc) with ⟨x, r', rfl, hx, _, he⟩ | he
      · refine .inl ⟨c :: x, r', rfl, by simp [hx, Ne.symm hc], by simp, ?_⟩
        simp only [scan, if_neg hc, he]
        simp
      · exact .inr (by simp only [scan, if_neg hc, he])

/-- a value read: one without dollar signs as it stands -/
def valueOf (p : Parsed) (n : Nat) (s v : List Char) : Except RefErr (List Char) := if '$' ∈ v then expand p n s v else .ok v

theorem build_iff {V : List Char → List Char → List Char → Prop} {deeper : List Char → List Char → Except RefErr (List Char)}
    (hV : ∀ s v a, (if '$' ∈ v then deeper s v else .ok v) = .ok a ↔ V s v a) (s text out : List Char) :
    build p deeper s (scan .plain text) = .ok out ↔ Reads p V s text out := by
  constructor
  · induction hn : text.length using Nat.strong_induction_on generalizing text out with
    | _ n ih =>
      intro h
      match text, hn, h with
      | [], _, h =>
        simp only [scan, build] at h
        cases h
        exact .done
      | c :: r, hn, h =>
        by_cases hc : c = '$'
        · subst hc
          match r, hn, h with
          | [], _, h => simp [scan, build] at h
          | d :: r, hn, h =>
            by_cases hd : d = '$'
            · subst hd
              simp only [scan, if_true, build] at h
              cases hb : build p deeper s (scan .plain r) with
              | error e => simp [hb] at h
              | ok out' =>
                simp only [hb] at h
                cases h
                exact .dollar (ih r.length (by simp at hn; omega) r out' rfl hb)
            · by_cases hd' : d = '{'
              · subst hd'
                rcases scan_name_cases r [] with ⟨x, r', rfl, hx, hne, he⟩ | he
                · simp only [scan, if_true, if_neg hd, he, List.reverse_nil, List.nil_append, build] at h
                  cases ht : target s x with
                  | none => simp [ht] at h
                  | some t =>
                    obtain ⟨t, o⟩ := t
                    simp only [ht] at h
                    cases hg : rawGet p t o with
                    | error e => simp [hg] at h
                    | ok v =>
                      simp only [hg] at h
                      cases hv : (if '$' ∈ v then deeper t v else .ok v) with
                      | error e => simp [hv] at h
                      | ok a =>
                        simp only [hv] at h
                        cases hb : build p deeper s (scan .plain r') with
                        | error e => simp [hb] at h
                        | ok out' =>
                          simp only [hb] at h
                          cases h
                          have := Reads.ref (p := p) (V := V) (s := s) (name := x) (r := r') (out := out') ⟨hx, by simpa using hne, (target_iff s x t o).mp ht⟩
                            ((rawGet_iff t o v).mp hg) ((hV t v a).mp hv) (ih r'.length (by simp at hn; omega) r' out' rfl hb)
                          simpa [refText] using this
                · simp [scan, he, build] at h
              · simp [scan, hd, hd', build] at h
        · simp only [scan, if_neg hc, build] at h
          cases hb : build p deeper s (scan .plain r) with
          | error e => simp [hb] at h
          | ok out' =>
            simp only [hb] at h
            cases h
            exact .char hc (ih r.length (by simp at hn; omega) r out' rfl hb)
  · intro h
    induction h with
    | done => rfl
    | char hc _ ih => simp only [scan, if_neg hc, build, ih]
    | dollar _ ih => simp [scan, build, ih]
    | @ref name t o v a r out hn hg hv _ ih =>
      rw [scan_refText _ _ hn.1 hn.2.1]
      simp only [build, (target_iff s name t o).mpr hn.2.2, (rawGet_iff t o v).mpr hg, (hV t v a).mpr hv, ih]

theorem Reads.plain {V : List Char → List Char → List Char → Prop} (s : List Char) : ∀ v : List Char, '$' ∉ v → Reads p V s v v
  | [], _ => .done
  | c :: v, h => by
    simp only [List.mem_cons, not_or] at h
    exact .char (Ne.symm h.1) (Reads.plain s v h.2)

theorem expand_iff : ∀ (n : Nat) (s v a : List Char), valueOf p n s v = .ok a ↔ Means p n s v a
  | 0, s, v, a => by
    unfold valueOf Means
    by_cases h : '$' ∈ v
    · simp [h, expand]
    · simp only [if_neg h, Except.ok.injEq]
      exact ⟨fun e => ⟨h, e.symm⟩, fun e => e.2.symm⟩
  | n + 1, s, v, a => by
    have key := build_iff (p := p) (V := Means p n) (deeper := expand p n) (expand_iff n) s v a
    unfold valueOf
    by_cases h : '$' ∈ v
    · rw [if_pos h]; exact key
    · rw [if_neg h]
      have hp := Reads.plain (p := p) (V := Means p n) s v h
      constructor
      · intro e; cases e; exact hp
      · intro e
        have e1 := key.mpr e
        have e2 := (build_iff (p := p) (V := Means p n) (deeper := expand p n) (expand_iff n) s v v).mpr hp
        rw [e1] at e2
        cases e2
        rfl

theorem expand_succ (n : Nat) (s v a : List Char) : expand p (n + 1) s v = .ok a ↔ Means p (n + 1) s v a :=
  build_iff (p := p) (V := Means p n) (deeper := expand p n) (expand_iff n) s v a

theorem Reads.mono {V W : List Char → List Char → List Char → Prop} (h : ∀ s v a, V s v a → W s v a) {s v a : List Char} (hr : Reads p V s v a) :
    Reads p W s v a := by
  induction hr with
  | done => exact .done
  | char hc _ ih => exact .char hc ih
  | dollar _ ih => exact .dollar ih
  | ref hn hg hv _ ih => exact .ref hn hg (h _ _ _ hv) ih

theorem Means.succ : ∀ {n : Nat} {s v a : List Char}, Means p n s v a → Means p (n + 1) s v a
  | 0, s, v, a, h => by
    obtain ⟨h, rfl⟩ := h
    exact Reads.plain s _ h
  | n + 1, _, _, _, h => Reads.mono (fun _ _ _ => Means.succ) h

theorem Means.mono {n m : Nat} (h : n ≤ m) {s v a : List Char} (hm : Means p n s v a) : Means p m s v a := by
  induction h with
  | refl => exact hm
  | step _ ih => exact ih.succ

theorem Reads.append {V : List Char → List Char → List Char → Prop} {s x y a b : List Char} (h : Reads p V s x a) (h' : Reads p V s y b) :
    Reads p V s (x ++ y) (a ++ b) := by
  induction h with
  | done => exact h'
  | char hc _ ih => exact .char hc ih
  | dollar _ ih => exact .dollar ih
  | ref hn hg hv _ ih =>
    simp only [List.append_assoc]
    exact .ref hn hg hv ih

theorem scan_closed {x : List Char} (h : Closed x) (y : List Char) : ∃ ts, scan .plain x = ts ∧ scan .plain (x ++ y) = ts ++ scan .plain y := by
  induction h with
  | done => exact ⟨[], rfl, rfl⟩
  | char hc _ ih =>
    obtain ⟨ts, h1, h2⟩ := ih
    exact ⟨_, rfl, by simp only [List.cons_append, scan, if_neg hc, h2, h1]⟩
  | dollar _ ih =>
    obtain ⟨ts, h1, h2⟩ := ih
    exact ⟨_, rfl, by simp [scan, h2, h1]⟩
  | ref hb hn _ ih =>
    obtain ⟨ts, h1, h2⟩ := ih
    refine ⟨_, rfl, ?_⟩
    rw [List.append_assoc, scan_refText _ _ hb hn, scan_refText _ _ hb hn, h2, h1]
    rfl

theorem build_append (deeper : List Char → List Char → Except RefErr (List Char)) (s : List Char) : ∀ (ts us : List Tok),
    build p deeper s (ts ++ us) = match build p deeper s ts with
      | .error e => .error e
      | .ok a => match build p deeper s us with
        | .error e => .error e
        | .ok b => .ok (a ++ b)
  | [], us => by
    simp only [List.nil_append, build]
    cases build p deeper s us <;> rfl
  | .char c :: ts, us => by
    simp only [List.cons_append, build, build_append deeper s ts us]
    cases build p deeper s ts with
    | error e => rfl
    | ok a =>
      dsimp only
      cases build p deeper s us <;> rfl
  | .bad :: ts, us => rfl
  | .ref name :: ts, us => by
    simp only [List.cons_append, build, build_append deeper s ts us]
    cases target s name with
    | none => rfl
    | some t =>
      dsimp only
      cases rawGet p t.1 t.2 with
      | error e => rfl
      | ok v =>
        dsimp only
        cases (if '$' ∈ v then deeper t.1 v else .ok v) with
        | error e => rfl
        | ok a =>
          dsimp only
          cases build p deeper s ts with
          | error e => rfl
          | ok b =>
            dsimp only
            cases build p deeper s us with
            | error e => rfl
            | ok c => simp

theorem Reads.split {n : Nat} {s x y c : List Char} (hx : Closed x) (h : Reads p (Means p n) s (x ++ y) c) :
    ∃ a b, c = a ++ b ∧ Reads p (Means p n) s x a ∧ Reads p (Means p n) s y b := by
  have key := fun t o => build_iff (p := p) (V := Means p n) (deeper := expand p n) (expand_iff n) s t o
  have h1 := (key _ _).mpr h
  obtain ⟨ts, e1, e2⟩ := scan_closed hx y
  rw [e2, build_append] at h1
  cases ha : build p (expand p n) s ts with
  | error e => simp [ha] at h1
  | ok a =>
    cases hb : build p (expand p n) s (scan .plain y) with
    | error e => simp [ha, hb] at h1
    | ok b =>
      simp only [ha, hb, Except.ok.injEq] at h1
      exact ⟨a, b, h1.symm, (key x a).mp (by rw [e1]; exact ha), (key y b).mp hb⟩

theorem Reads.closed {V : List Char → List Char → List Char → Prop} {s x a : List Char} (h : Reads p V s x a) : Closed x := by
  induction h with
  | done => exact .done
  | char hc _ ih => exact .char hc ih
  | dollar _ ih => exact .dollar ih
  | ref hn _ _ _ ih => exact .ref hn.1 hn.2.1 ih

theorem Names.unique {s name t o t' o' : List Char} (h : Names s name t o) (h' : Names s name t' o') : t' = t ∧ o' = o := by
  have e := (target_iff s name t o).mpr h.2.2
  rw [(target_iff s name t' o').mpr h'.2.2] at e
  simpa using e

/-- a reference alone -/
theorem Reads.of_ref {n : Nat} {s name t o a r : List Char} (hn : Names s name t o) (h : Reads p (Means p n) s (refText name ++ r) a) :
    ∃ v b c, a = b ++ c ∧ Gives p t o v ∧ Means p n t v b ∧ Reads p (Means p n) s r c := by
  have h1 := (build_iff (p := p) (V := Means p n) (deeper := expand p n) (expand_iff n) s _ a).mpr h
  rw [scan_refText _ _ hn.1 hn.2.1] at h1
  simp only [build, (target_iff s name t o).mpr hn.2.2] at h1
  cases hg : rawGet p t o with
  | error e => simp [hg] at h1
  | ok v =>
    simp only [hg] at h1
    cases hv : (if '$' ∈ v then expand p n t v else .ok v) with
    | error e => simp [hv] at h1
    | ok b =>
      simp only [hv] at h1
      cases hb : build p (expand p n) s (scan .plain r) with
      | error e => simp [hb] at h1
      | ok c =>
        simp only [hb, Except.ok.injEq] at h1
        exact ⟨v, b, c, h1.symm, (rawGet_iff t o v).mp hg, (expand_iff n t v b).mp hv,
          (build_iff (p := p) (V := Means p n) (deeper := expand p n) (expand_iff n) s r c).mp hb⟩

/-- more levels change an outcome only if it was the error about the levels -/
theorem build_more {d d' : List Char → List Char → Except RefErr (List Char)} (h : ∀ s v, d s v = .error .depth ∨ d' s v = d s v) (s : List Char) :
    ∀ ts : List Tok, build p d s ts = .error .depth ∨ build p d' s ts = build p d s ts
  | [] => .inr rfl
  | .char c :: ts => by
    rcases build_more h s ts with e | e
    · exact .inl (by simp only [build, e])
    · exact .inr (by simp only [build, e])
  | .bad :: ts => .inr rfl
  | .ref name :: ts => by
    simp only [build]
    cases target s name with
    | none => exact .inr rfl
    | some t =>
      dsimp only
      cases rawGet p t.1 t.2 with
      | error e => exact .inr rfl
      | ok v =>
        dsimp only
        have hd : (if '$' ∈ v then d t.1 v else .ok v) = .error .depth ∨ (if '$' ∈ v then d' t.1 v else .ok v) = (if '$' ∈ v then d t.1 v else .ok v) := by
          by_cases hv : '$' ∈ v
          · simp only [if_pos hv]; exact h t.1 v
          · simp only [if_neg hv]; exact .inr trivial
        rcases hd with e | e
        · simp only [e]; exact .inl trivial
        · simp only [e]
          cases (if '$' ∈ v then d t.1 v else .ok v) with
          | error e => exact .inr rfl
          | ok a =>
            dsimp only
            rcases build_more h s ts with e | e
            · simp only [e]; exact .inl trivial
            · simp only [e]; exact .inr trivial

theorem expand_more : ∀ (n : Nat) (s v : List Char), expand p n s v = .error .depth ∨ expand p (n + 1) s v = expand p n s v
  | 0, _, _ => .inl rfl
  | n + 1, s, v => build_more (expand_more n) s _

theorem expand_le (n m : Nat) (s v : List Char) : expand p n s v = .error .depth ∨ expand p (n + m) s v = expand p n s v := by
  induction m with
  | zero => exact .inr rfl
  | succ m ih =>
    rcases ih with h | h
    · exact .inl h
    · rcases expand_more (p := p) (n + m) s v with h' | h'
      · rw [h] at h'; exact .inl h'
      · exact .inr ((Nat.add_assoc n m 1 ▸ h').trans h)

/-! ## the theorems -/

/-- **C136** A value is read as what it means with at most ten levels of references; otherwise reading fails. -/
theorem C136_reads (p : Parsed) (s o a : List Char) : read p s o = .ok a ↔ ∃ v, Gives p s o v ∧ Means p 10 s v a := by
  unfold read
  constructor
  · intro h
    cases hg : rawGet p s o with
    | error e => simp [hg] at h
    | ok v =>
      simp only [hg] at h
      exact ⟨v, (rawGet_iff s o v).mp hg, (expand_succ 9 s v a).mp h⟩
  · rintro ⟨v, hg, hm⟩
    simp only [(rawGet_iff s o v).mpr hg]
    exact (expand_succ 9 s v a).mpr hm

/-- **C136** The meaning does not depend on the number of levels allowed, and an option has one value at most. -/
theorem C136_unique (p : Parsed) (s o v w a b : List Char) (n m : Nat) :
    (Gives p s o v → Gives p s o w → v = w) ∧ (Means p n s v a → Means p m s v b → a = b) := by
  refine ⟨fun h h' => ?_, fun h h' => ?_⟩
  · have := (rawGet_iff s o v).mpr h
    rw [(rawGet_iff s o w).mpr h'] at this
    cases this
    rfl
  · have e := (expand_iff (max n m) s v a).mpr (h.mono (le_max_left _ _))
    rw [(expand_iff (max n m) s v b).mpr (h'.mono (le_max_right _ _))] at e
    cases e
    rfl

/-- **C136** Without dollar signs a value is read as it stands. -/
theorem C136_plain (p : Parsed) (s o v : List Char) (h : Gives p s o v) (hv : '$' ∉ v) : read p s o = .ok v :=
  (C136_reads p s o v).mpr ⟨v, h, Reads.plain s v hv⟩

theorem doubled_reads {V : List Char → List Char → List Char → Prop} (s : List Char) : ∀ v : List Char, Reads p V s (doubled v) v
  | [] => .done
  | c :: v => by
    by_cases hc : c = '$'
    · subst hc
      exact Reads.dollar (doubled_reads s v)
    · have : doubled (c :: v) = c :: doubled v := by simp [doubled, hc]
      rw [this]
      exact .char hc (doubled_reads s v)

/-- **C136** Every text can be written: with all dollar signs doubled it is read as it was. -/
theorem C136_doubled (p : Parsed) (s o v : List Char) (h : Gives p s o (doubled v)) : read p s o = .ok v :=
  (C136_reads p s o v).mpr ⟨_, h, doubled_reads s v⟩

/-- **C136** A reference stands for the value of the option it names, read in the section of that option (one from `[DEFAULT]` in the
section which does not have it); in longer texts the parts are read one by one. -/
theorem C136_reference (p : Parsed) (n : Nat) (s name t o a : List Char) (h : Names s name t o) :
    (Means p (n + 1) s (refText name) a ↔ ∃ v, Gives p t o v ∧ Means p n t v a) ∧
    (∀ before after, Closed before → (Means p (n + 1) s (before ++ (refText name ++ after)) a ↔
      ∃ b v c d, a = b ++ (c ++ d) ∧ Means p (n + 1) s before b ∧ Gives p t o v ∧ Means p n t v c ∧ Means p (n + 1) s after d)) := by
  constructor
  · constructor
    · intro hm
      obtain ⟨v, b, c, rfl, hg, hv, hr⟩ := Reads.of_ref (r := []) h (by simpa [Means] using hm)
      cases hr
      exact ⟨v, hg, by simpa using hv⟩
    · rintro ⟨v, hg, hv⟩
      have := Reads.ref (p := p) (V := Means p n) h hg hv .done
      simpa [Means] using this
  · intro before after hb
    constructor
    · intro hm
      obtain ⟨b, c, rfl, h1, h2⟩ := Reads.split hb hm
      obtain ⟨v, c, d, rfl, hg, hv, hr⟩ := Reads.of_ref h h2
      exact ⟨b, v, c, d, rfl, h1, hg, hv, hr⟩
    · rintro ⟨b, v, c, d, rfl, h1, hg, hv, hr⟩
      exact Reads.append h1 (.ref h hg hv hr)

/-- **C136** A reference to an option of the same section may be replaced by the raw value of this option. -/
theorem C136_inline (p : Parsed) (n : Nat) (s o v a before after : List Char) (ho : '}' ∉ o ∧ ':' ∉ o ∧ o ≠ []) (hb : Closed before)
    (hg : Gives p s o v) (h : Means p (n + 1) s (before ++ (refText o ++ after)) a) : Means p (n + 1) s (before ++ (v ++ after)) a := by
  obtain ⟨b, v', c, d, rfl, h1, hg', hv, hr⟩ := ((C136_reference p n s o s o a ⟨ho.1, ho.2.2, .inl ⟨ho.2.1, rfl, rfl⟩⟩).2 before after hb).mp h
  obtain rfl := (C136_unique p s o v v' [] [] 0 0).1 hg hg'
  exact Reads.append h1 (Reads.append hv.succ hr)

/-- **C136** What has a meaning, but not within ten levels, is refused because of the levels. -/
theorem C136_levels (p : Parsed) (s o v a : List Char) (n : Nat) (hg : Gives p s o v) (h : Means p n s v a) :
    (Means p 10 s v a ∧ read p s o = .ok a) ∨ ((∀ b, ¬ Means p 10 s v b) ∧ read p s o = .error .depth) := by
  by_cases hm : ∃ b, Means p 10 s v b
  · obtain ⟨b, hb⟩ := hm
    obtain rfl := (C136_unique p s o v v a b n 10).2 h hb
    exact .inl ⟨hb, (C136_reads p s o a).mpr ⟨v, hg, hb⟩⟩
  · push Not at hm
    refine .inr ⟨hm, ?_⟩
    unfold read
    simp only [(rawGet_iff s o v).mpr hg]
    rcases expand_le (p := p) 10 (n + 1) s v with e | e
    · exact e
    · have h1 : expand p (10 + (n + 1)) s v = .ok a := (expand_succ (10 + n) s v a).mpr (h.mono (by omega))
      exact absurd ((expand_succ 9 s v a).mp (e.symm.trans h1)) (hm a)

/-- **C136** Options that refer to each other in a circle, or to themselves, can never be read. -/
theorem C136_circle (p : Parsed) (S : List Char → List Char → Prop)
    (hS : ∀ s o, S s o → ∀ v, Gives p s o v → ∃ t x, RefersTo s v t x ∧ S t x) (s o : List Char) (h : S s o) :
    (∀ v, Gives p s o v → ∀ n a, ¬ Means p n s v a) ∧ ∀ a, read p s o ≠ .ok a := by
  have key : ∀ n s o, S s o → ∀ v, Gives p s o v → ∀ a, ¬ Means p n s v a := by
    intro n
    induction n with
    | zero =>
      intro s o h v hg a hm
      obtain ⟨t, x, ⟨before, name, after, rfl, _, _⟩, _⟩ := hS s o h v hg
      exact hm.1 (by simp [refText])
    | succ n ih =>
      intro s o h v hg a hm
      obtain ⟨t, x, ⟨before, name, after, rfl, hb, hn⟩, hS'⟩ := hS s o h v hg
      obtain ⟨_, v', c, _, _, _, hg', hv, _⟩ := ((C136_reference p n s name t x a hn).2 before after hb).mp hm
      exact ih t x hS' v' hg' c hv
  refine ⟨fun v hg n a => key n s o h v hg a, fun a ha => ?_⟩
  obtain ⟨v, hg, hm⟩ := (C136_reads p s o a).mp ha
  exact key 10 s o h v hg a hm

/-- **C136** What is refused, and how: after a part that can be read, a reference to an option that is not there, one with several colons, and
a dollar sign that begins nothing. -/
theorem C136_refused (p : Parsed) (s o before b rest : List Char) (hg : Gives p s o (before ++ rest)) (hb : Means p 10 s before b) :
    (∀ name t x after, rest = refText name ++ after → Names s name t x → (∀ v, ¬ Gives p t x v) → read p s o = .error .missing) ∧
    (∀ name after, rest = refText name ++ after → '}' ∉ name → name ≠ [] → (∀ t x, ¬ Names s name t x) → read p s o = .error .syntaxError) ∧
    (rest = ['$'] → read p s o = .error .syntaxError) ∧
    (∀ c after, rest = '$' :: c :: after → c ≠ '$' → c ≠ '{' → read p s o = .error .syntaxError) ∧
    (∀ after, rest = '$' :: '{' :: after → '}' ∉ after → read p s o = .error .syntaxError) ∧
    (∀ after, rest = '$' :: '{' :: '}' :: after → read p s o = .error .syntaxError) := by
  have key : read p s o = match build p (expand p 9) s (scan .plain rest) with
      | .error e => .error e
      | .ok c => .ok (b ++ c) := by
    unfold read
    simp only [(rawGet_iff s o _).mpr hg]
    show build p (expand p 9) s (scan .plain (before ++ rest)) = _
    obtain ⟨ts, e1, e2⟩ := scan_closed (Reads.closed hb) rest
    have h1 := (build_iff (p := p) (V := Means p 9) (deeper := expand p 9) (expand_iff 9) s before b).mpr hb
    rw [e1] at h1
    rw [e2, build_append]
    rw [h1]
  refine ⟨?_, ?_, ?_, ?_, ?_, ?_⟩
  · rintro name t x after rfl hn hno
    rw [key, scan_refText _ _ hn.1 hn.2.1]
    obtain ⟨e, he⟩ := rawGet_error t x hno
    simp only [build, (target_iff s name t x).mpr hn.2.2, he]
  · rintro name after rfl hb hne hno
    rw [key, scan_refText _ _ hb hne]
    have : target s name = none := by
      cases ht : target s name with
      | none => rfl
      | some t => exact absurd ⟨hb, hne, (target_iff s name t.1 t.2).mp ht⟩ (hno t.1 t.2)
    simp only [build, this]
  · rintro rfl
    rw [key]
    simp [scan, build]
  · rintro c after rfl h1 h2
    rw [key]
    simp [scan, h1, h2, build]
  · rintro after rfl h
    rw [key]
    have : scan (.name []) after = [.bad] := by
      rcases scan_name_cases after [] with ⟨x, r', rfl, _⟩ | e
      · exact absurd (by simp) h
      · exact e
    simp [scan, this, build]
  · rintro after rfl
    rw [key]
    simp [scan, build]

/-! ## files without dollar signs -/

/-- no dollar sign in any value held -/
def NoDollar (s : St) : Prop := (∀ q ∈ s.sections, ∀ e ∈ q.2, ∀ l ∈ e.2, '$' ∉ l) ∧ ∀ e ∈ s.defaults, ∀ l ∈ e.2, '$' ∉ l

theorem current_noDollar {s : St} (h : NoDollar s) : ∀ e ∈ s.current, ∀ l ∈ e.2, '$' ∉ l := by
  unfold St.current
  cases s.sect with
  | none => simp
  | some n =>
    dsimp only
    split
    · exact h.2
    · cases hg : get? s.sections n with
      | none => simp
      | some o =>
        obtain hm := get?_mem hg
        exact h.1 _ hm

theorem set_noDollar {d : Opts} (h : ∀ e ∈ d, ∀ l ∈ e.2, '$' ∉ l) {name : List Char} {ls : List (List Char)} (hl : ∀ l ∈ ls, '$' ∉ l) :
    ∀ e ∈ PyDict.set d name ls, ∀ l ∈ e.2, '$' ∉ l := by
  intro e he
  rcases mem_set he with e1 | e1
  · rw [e1]; exact hl
  · exact h e e1

theorem put_noDollar {s : St} (h : NoDollar s) (name : List Char) {ls : List (List Char)} (hl : ∀ l ∈ ls, '$' ∉ l) : NoDollar (s.put name ls) := by
  unfold St.put
  cases s.sect with
  | none => exact h
  | some n =>
    dsimp only
    split
    · exact ⟨h.1, set_noDollar h.2 hl⟩
    · refine ⟨fun q hq => ?_, h.2⟩
      rcases mem_set hq with e1 | e1
      · rw [e1]; exact set_noDollar (current_noDollar h) hl
      · exact h.1 q e1

theorem cutComment_sub (prev : Option Char) (x : List Char) : ∀ c ∈ cutComment prev x, c ∈ x := by
  induction x generalizing prev with
  | nil => simp [cutComment]
  | cons d x ih =>
    intro c hc
    unfold cutComment at hc
    split at hc
    · simp at hc
    · rcases List.mem_cons.mp hc with rfl | hc
      · simp
      · exact List.mem_cons_of_mem _ (ih _ c hc)

theorem strip_sub (x : List Char) : ∀ c ∈ Loader.strip x, c ∈ x := by
  intro c hc
  obtain ⟨a, b, h, _⟩ := (stripped_iff x _).mp rfl
  rw [h]
  simp [hc]

theorem rstrip_sub (x : List Char) : ∀ c ∈ Loader.rstrip x, c ∈ x := by
  intro c hc
  unfold Loader.rstrip at hc
  exact List.mem_reverse.mp (List.dropWhile_sublist _ |>.subset (List.mem_reverse.mp hc))

theorem splitEq_sub : ∀ (x : List Char) (q : List Char × List Char), splitEq x = some q → ∀ c ∈ q.2, c ∈ x
  | [], q, h => by simp [splitEq] at h
  | d :: x, q, h => by
    unfold splitEq at h
    split at h
    · cases h; intro c hc; exact List.mem_cons_of_mem _ hc
    · cases hx : splitEq x with
      | none => simp [hx] at h
      | some r =>
        simp only [hx, Option.map_some, Option.some.injEq] at h
        subst h
        intro c hc
        exact List.mem_cons_of_mem _ (splitEq_sub x r hx c hc)

theorem step_noDollar {s s' : St} {l : List Char} (h : NoDollar s) (hl : '$' ∉ l) (hs : s.step l = .ok s') : NoDollar s' := by
  have hv : '$' ∉ Loader.strip (cutComment none l) := fun hm => hl (cutComment_sub none l _ (strip_sub _ _ hm))
  have happ : ∀ v, '$' ∉ v → NoDollar (s.append v) := by
    intro v hv
    refine put_noDollar h _ fun x hx => ?_
    rcases List.mem_append.mp hx with hx | hx
    · cases hg : get? s.current s.opt with
      | none => simp [hg] at hx
      | some o =>
        rw [hg] at hx
        exact current_noDollar h _ (get?_mem hg) x hx
    · simp at hx; subst hx; exact hv
  unfold St.step at hs
  dsimp only at hs
  split at hs
  · split at hs
    · cases hs; exact happ _ (by simp)
    · cases hs; exact h
  · split at hs
    · cases hs; exact happ _ hv
    · unfold St.fresh at hs
      split at hs
      · unfold St.enter at hs
        dsimp only at hs
        split at hs
        · cases hs
        · split at hs
          · cases hs; exact h
          · cases hs
            refine ⟨fun q hq => ?_, h.2⟩
            rcases mem_set hq with e1 | e1
            · rw [e1]; simp
            · exact h.1 q e1
      · split at hs
        · cases hs
        · split at hs
          · cases hs; exact h
          · rename_i q hq
            unfold St.define at hs
            split at hs
            · cases hs
            · cases hs
              exact put_noDollar (s := { s with indent := indentOf l }) h _ (by
                intro x hx
                simp only [List.mem_singleton] at hx
                subst hx
                exact fun hm => hv (splitEq_sub _ q hq _ (strip_sub _ _ hm)))

theorem run_noDollar {s s' : St} {ls : List (List Char)} (h : NoDollar s) (hl : ∀ l ∈ ls, '$' ∉ l) (hs : s.run ls = .ok s') : NoDollar s' := by
  induction ls generalizing s with
  | nil => simp only [St.run, Except.ok.injEq] at hs; exact hs ▸ h
  | cons l ls ih =>
    unfold St.run at hs
    cases hst : s.step l with
    | error e => simp [hst] at hs
    | ok s1 =>
      simp only [hst] at hs
      exact ih (step_noDollar h (hl l (by simp)) hst) (fun x hx => hl x (by simp [hx])) hs

theorem joined_noDollar {ls : List (List Char)} (h : ∀ l ∈ ls, '$' ∉ l) : '$' ∉ joined ls := by
  intro hm
  have hm := rstrip_sub _ _ hm
  have : ∀ ls : List (List Char), (∀ l ∈ ls, '$' ∉ l) → '$' ∉ Interface.join ['\n'] ls := by
    intro ls
    induction ls with
    | nil => simp [Interface.join]
    | cons a t ih =>
      intro h
      cases t with
      | nil => simpa [Interface.join] using h a (by simp)
      | cons b t =>
        have := ih (fun l hl => h l (by simp [hl]))
        simp only [Interface.join, List.mem_append, not_or]
        exact ⟨⟨h a (by simp), by decide⟩, this⟩
  exact this ls h hm

theorem values_noDollar {o : Opts} (h : ∀ e ∈ o, ∀ l ∈ e.2, '$' ∉ l) : ∀ q ∈ values o, '$' ∉ q.2 := by
  intro q hq
  obtain ⟨e, he, rfl⟩ := List.mem_map.mp hq
  exact joined_noDollar (h e he)

/-- no value of the configuration has a dollar sign -/
def Plain (p : Parsed) : Prop := (∀ q ∈ p.sections, ∀ e ∈ q.2, '$' ∉ e.2) ∧ ∀ e ∈ p.defaults, '$' ∉ e.2

theorem readCfg_plain {lines : List (List Char)} {p : Parsed} (h : readCfg lines = .ok p) (hl : ∀ l ∈ lines, '$' ∉ l) : Plain p := by
  unfold readCfg at h
  cases hr : St.start.run lines with
  | error e => simp [hr] at h
  | ok s =>
    simp only [hr] at h
    have hn : NoDollar s := run_noDollar (by simp [NoDollar, St.start]) hl hr
    unfold St.finish at h
    split at h
    · cases h
    · cases h
      refine ⟨fun q hq => ?_, values_noDollar hn.2⟩
      obtain ⟨r, hr, rfl⟩ := List.mem_map.mp hq
      exact values_noDollar (hn.1 r hr)

theorem readAll_eq (s : List Char) : ∀ (l : PyDict (List Char) (List Char)), (∀ e ∈ l, read p s e.1 = .ok e.2) →
    readAll p s (l.map Prod.fst) = .ok (l.map fun d => (String.ofList d.1, d.2))
  | [], _ => rfl
  | e :: l, h => by
    simp only [List.map_cons, readAll, h e (by simp), readAll_eq s l (fun x hx => h x (by simp [hx]))]

theorem put_keys {s : St} (h : defaultName ∉ keys s.sections) (name : List Char) (ls : List (List Char)) : defaultName ∉ keys (s.put name ls).sections := by
  unfold St.put
  cases hs : s.sect with
  | none => exact h
  | some n =>
    dsimp only
    split
    · exact h
    · rename_i hn
      intro hm
      rcases (mem_keys_set _ _ _ _).mp hm with e | e
      · exact hn e.symm
      · exact h e

theorem step_keys {s s' : St} {l : List Char} (h : defaultName ∉ keys s.sections) (hs : s.step l = .ok s') : defaultName ∉ keys s'.sections := by
  unfold St.step at hs
  dsimp only at hs
  split at hs
  · split at hs
    · cases hs; exact put_keys h _ _
    · cases hs; exact h
  · split at hs
    · cases hs; exact put_keys h _ _
    · unfold St.fresh at hs
      split at hs
      · unfold St.enter at hs
        dsimp only at hs
        split at hs
        · cases hs
        · split at hs
          · cases hs; exact h
          · rename_i hn
            cases hs
            intro hm
            rcases (mem_keys_set _ _ _ _).mp hm with e | e
            · exact hn e.symm
            · exact h e
      · split at hs
        · cases hs
        · split at hs
          · cases hs; exact h
          · unfold St.define at hs
            split at hs
            · cases hs
            · cases hs
              exact put_keys (s := { s with indent := indentOf l }) h _ _

theorem run_keys {s s' : St} {ls : List (List Char)} (h : defaultName ∉ keys s.sections) (hs : s.run ls = .ok s') : defaultName ∉ keys s'.sections := by
  induction ls generalizing s with
  | nil => simp only [St.run, Except.ok.injEq] at hs; exact hs ▸ h
  | cons l ls ih =>
    unfold St.run at hs
    cases hst : s.step l with
    | error e => simp [hst] at hs
    | ok s1 =>
      simp only [hst] at hs
      exact ih (step_keys h hst) hs

theorem readCfg_keys {lines : List (List Char)} {p : Parsed} (h : readCfg lines = .ok p) : defaultName ∉ keys p.sections ∧ WF p.sections ∧
    (∀ q ∈ p.sections, WF q.2) ∧ WF p.defaults := by
  unfold readCfg at h
  cases hr : St.start.run lines with
  | error e => simp [hr] at h
  | ok s =>
    simp only [hr] at h
    have hk : defaultName ∉ keys s.sections := run_keys (by simp [keys, St.start]) hr
    have hd : Distinct s := run_distinct (by simp [Distinct, St.start, WF, keys]) hr
    unfold St.finish at h
    split at h
    · cases h
    · cases h
      have e : ∀ o : Opts, keys (values o) = keys o := fun o => by simp [keys, values, Function.comp_def]
      refine ⟨?_, ?_, ?_, ?_⟩
      · simpa [keys, Function.comp_def] using hk
      · simpa [WF, keys, Function.comp_def] using hd.1
      · intro q hq
        obtain ⟨r, hr, rfl⟩ := List.mem_map.mp hq
        show (keys (values r.2)).Nodup
        rw [e]
        exact hd.2.1 r hr
      · show (keys (values s.defaults)).Nodup
        rw [e]
        exact hd.2.2

/-- **C136** A file without dollar signs has no references: every section is read as the raw values it shows (the options of the section, then
the ones of `[DEFAULT]` it does not have), so that the runs of the tools, which are modelled with the raw values, are exact for these files. -/
theorem C136_plain_file (lines : List (List Char)) (p : Parsed) (h : readCfg lines = .ok p) (hl : ∀ l ∈ lines, '$' ∉ l) :
    ∀ q ∈ p.items, readItems p q.1 = .ok q.2 := by
  obtain ⟨hk, hw, hws, hwd⟩ := readCfg_keys h
  have hp := readCfg_plain h hl
  have hdef : get? p.sections defaultName = none := by
    cases hg : get? p.sections defaultName with
    | none => rfl
    | some o => exact absurd (List.mem_map_of_mem (f := Prod.fst) (get?_mem hg)) hk
  intro q hq
  unfold Parsed.items at hq
  rcases List.mem_cons.mp hq with rfl | hq
  · unfold readItems
    rw [if_pos rfl]
    exact readAll_eq _ _ fun e he => C136_plain p _ _ _ (.inr ⟨hdef, rfl, mem_get? hwd he⟩) (hp.2 e he)
  · obtain ⟨r, hr, rfl⟩ := List.mem_map.mp hq
    have hne : r.1 ≠ defaultName := fun e => hk (e ▸ List.mem_map_of_mem (f := Prod.fst) hr)
    have hg : get? p.sections r.1 = some r.2 := mem_get? hw hr
    unfold readItems
    simp only [if_neg hne, hg]
    refine readAll_eq _ _ fun e he => ?_
    rcases List.mem_append.mp he with he | he
    · exact C136_plain p _ _ _ (.inl ⟨_, hg, .inl (mem_get? (hws r hr) he)⟩) (hp.1 r hr e he)
    · obtain ⟨he, hh⟩ := List.mem_filter.mp he
      refine C136_plain p _ _ _ (.inl ⟨_, hg, .inr ⟨?_, mem_get? hwd he⟩⟩) (hp.2 e he)
      simpa [has] using hh

/-! ## setting a value -/

theorem dropPairs_char {c : Char} (h : c ≠ '$') (r : List Char) : dropPairs (c :: r) = c :: dropPairs r := by
  cases r with
  | nil => rfl
  | cons d r => simp [dropPairs, h]

theorem leftOver_name (n : Nat) : ∀ (r acc : List Char), r.length ≤ n → leftOver (.name acc) (dropPairs r) = false →
    ∃ x r', r = x ++ '}' :: r' ∧ '}' ∉ x ∧ acc.reverse ++ x ≠ [] ∧ leftOver .plain (dropPairs r') = false := by
  induction n with
  | zero =>
    intro r acc hn h
    have : r = [] := List.length_eq_zero_iff.mp (by omega)
    subst this
    simp [dropPairs, leftOver] at h
  | succ n ih =>
    intro r acc hn h
    match r, hn, h with
    | [], _, h => simp [dropPairs, leftOver] at h
    | c :: r, hn, h =>
      have single : (dropPairs (c :: r) = c :: dropPairs r) → ∃ x r', c :: r = x ++ '}' :: r' ∧ '}' ∉ x ∧ acc.reverse ++ x ≠ [] ∧
          leftOver .plain (dropPairs r') = false := by
        intro e
        rw [e] at h
        unfold leftOver at h
        split at h
        · rename_i hc
          subst hc
          split at h
          · simp at h
          · rename_i ha
            exact ⟨[], r, rfl, by simp, by simpa using ha, h⟩
        · rename_i hc
          obtain ⟨x, r', rfl, hx, _, hl⟩ := ih r (c :: acc) (by simp at hn; omega) h
          exact ⟨c :: x, r', rfl, by simp [hx, Ne.symm hc], by simp, hl⟩
      by_cases hc : c = '$'
      · subst hc
        match r, hn, h, single with
        | [], _, h, _ => simp [dropPairs, leftOver] at h
        | d :: r, hn, h, single =>
          by_cases hd : d = '$'
          · subst hd
            simp only [dropPairs, and_self, if_true] at h
            obtain ⟨x, r', rfl, hx, _, hl⟩ := ih r acc (by simp at hn; omega) h
            exact ⟨'$' :: '$' :: x, r', rfl, by simp [hx], by simp, hl⟩
          · exact single (by simp [dropPairs, hd])
      · exact single (dropPairs_char hc r)

theorem closed_of_accepted (n : Nat) : ∀ v : List Char, v.length ≤ n → leftOver .plain (dropPairs v) = false → Closed v := by
  induction n with
  | zero =>
    intro v hn _
    have : v = [] := List.length_eq_zero_iff.mp (by omega)
    subst this
    exact .done
  | succ n ih =>
    intro v hn h
    match v, hn, h with
    | [], _, _ => exact .done
    | c :: r, hn, h =>
      by_cases hc : c = '$'
      · subst hc
        match r, hn, h with
        | [], _, h => simp [dropPairs, leftOver] at h
        | d :: r, hn, h =>
          by_cases hd : d = '$'
          · subst hd
            simp only [dropPairs, and_self, if_true] at h
            exact .dollar (ih r (by simp at hn; omega) h)
          · have e : dropPairs ('$' :: d :: r) = '$' :: d :: dropPairs r := by
              simp only [dropPairs, hd, and_false, if_false, dropPairs_char hd]
            rw [e] at h
            simp only [leftOver, if_true] at h
            split at h
            · rename_i hd'
              subst hd'
              obtain ⟨x, r', rfl, hx, hne, hl⟩ := leftOver_name _ r [] le_rfl h
              have := Closed.ref hx (by simpa using hne) (ih r' (by simp at hn; omega) hl)
              simpa [refText] using this
            · simp at h
      · rw [dropPairs_char hc] at h
        simp only [leftOver, if_neg hc] at h
        exact .char hc (ih r (by simp at hn; omega) h)

theorem leftOver_ref (name r : List Char) (hb : '}' ∉ name) (hd : '$' ∉ name) : ∀ acc, acc.reverse ++ name ≠ [] →
    leftOver (.name acc) (dropPairs (name ++ '}' :: r)) = leftOver .plain (dropPairs r) := by
  induction name with
  | nil =>
    intro acc h
    have : acc ≠ [] := by rintro rfl; exact h rfl
    rw [List.nil_append, dropPairs_char (by decide)]
    simp [leftOver, this]
  | cons c name ih =>
    intro acc _
    simp only [List.mem_cons, not_or] at hb hd
    rw [List.cons_append, dropPairs_char (Ne.symm hd.1)]
    simp only [leftOver, if_neg (Ne.symm hb.1)]
    exact ih hb.2 hd.2 _ (by simp)

theorem accepted_of_closed {v : List Char} (h : Closed v) (hn : ∀ before name after, v = before ++ (refText name ++ after) → Closed before → '}' ∉ name → '$' ∉ name) :
    leftOver .plain (dropPairs v) = false := by
  induction h with
  | done => rfl
  | @char c r hc _ ih =>
    rw [dropPairs_char hc]
    simp only [leftOver, if_neg hc]
    exact ih fun before name after e hb hb' => hn (c :: before) name after (by rw [e]; rfl) (.char hc hb) hb'
  | @dollar r _ ih =>
    simp only [dropPairs, and_self, if_true]
    exact ih fun before name after e hb hb' => hn ('$' :: '$' :: before) name after (by rw [e]; rfl) (.dollar hb) hb'
  | @ref name r hb hne _ ih =>
    have hd : '$' ∉ name := hn [] name r rfl .done hb
    have e1 := leftOver_ref name r hb hd [] (by simpa using hne)
    have e2 : dropPairs (refText name ++ r) = '$' :: '{' :: dropPairs (name ++ '}' :: r) := by
      have : dropPairs ('{' :: (name ++ '}' :: r)) = '{' :: dropPairs (name ++ '}' :: r) := dropPairs_char (by decide) _
      simp only [refText, List.cons_append, List.append_assoc, List.nil_append, dropPairs, this]
      simp
    rw [e2]
    simp only [leftOver, if_true, e1]
    exact ih fun before name' after e hb1 hb' => hn (refText name ++ before) name' after (by rw [e]; simp) (.ref hb hne hb1) hb'

/-- **C136** A setting given on the command line is taken over as it stands and only for its option, or refused with `ValueError`.  It is refused
if a dollar sign is neither doubled nor begins a reference, and accepted if all are (and no name of an option contains a dollar sign). -/
theorem C136_set (p : Parsed) (s o v : List Char) (opts : List (List Char × List Char)) (hs : get? p.sections s = some opts) :
    (¬ Closed v → setOption p s o v = .error .valueError) ∧
    (Closed v → (∀ before name after, v = before ++ (refText name ++ after) → Closed before → '}' ∉ name → '$' ∉ name) →
      ∃ p', setOption p s o v = .ok p') ∧
    (∀ p', setOption p s o v = .ok p' → Closed v ∧ ∀ t x w, Gives p' t x w ↔ if t = s ∧ x = o then w = v else Gives p t x w) := by
  unfold setOption
  refine ⟨fun h => ?_, fun h hn => ?_, fun p' h => ?_⟩
  · have : leftOver .plain (dropPairs v) = true := by
      cases hl : leftOver .plain (dropPairs v) with
      | true => rfl
      | false => exact absurd (closed_of_accepted _ v le_rfl hl) h
    rw [if_pos this]
  · rw [accepted_of_closed h hn]
    simp [hs]
  · split at h
    · cases h
    · rename_i hl
      simp only [hs, Except.ok.injEq] at h
      subst h
      refine ⟨closed_of_accepted _ v le_rfl (by simpa using hl), fun t x w => ?_⟩
      unfold Gives
      simp only [get?_set]
      by_cases ht : t = s
      · subst ht
        by_cases hx : x = o
        · subst hx
          simp [hs, get?_set, eq_comm]
        · have hx' : ¬ (o = x) := fun e => hx e.symm
          simp [hs, hx, hx', get?_set]
      · have ht' : ¬ (s = t) := fun e => ht e.symm
        simp [ht, ht']

/-! ## examples -/

/-- a configuration with references: `[DEFAULT]` gives `run = ${name}-1`, `[entry]` has `name = PbTe`, `cost = $$5`, `out = ${run}.txt`,
`loop = ${loop}`, and `[other]` has `name = SnTe`, `file = ${entry:run}/${run}` -/
def demo : Parsed where
  sections := [("entry".toList, [("name".toList, "PbTe".toList), ("cost".toList, "$$5".toList), ("out".toList, "${run}.txt".toList), ("loop".toList, "${loop}".toList)]),
    ("other".toList, [("name".toList, "SnTe".toList), ("file".toList, "${entry:run}/${run}".toList)])]
  defaults := [("run".toList, "${name}-1".toList)]

example : read demo "entry".toList "cost".toList = .ok "$5".toList := by decide +kernel
example : read demo "entry".toList "out".toList = .ok "PbTe-1.txt".toList := by decide +kernel
example : read demo "other".toList "file".toList = .ok "PbTe-1/SnTe-1".toList := by decide +kernel
example : read demo "entry".toList "loop".toList = .error .depth := by decide +kernel
example : read demo "DEFAULT".toList "run".toList = .error .missing := by decide +kernel

example : ∀ a, read demo "entry".toList "loop".toList ≠ .ok a :=
  (C136_circle demo (fun s o => s = "entry".toList ∧ o = "loop".toList) (by
    rintro s o ⟨rfl, rfl⟩ v hv
    obtain rfl := (C136_unique demo _ _ v "${loop}".toList [] [] 0 0).1 hv ((rawGet_iff _ _ _).mp (by decide +kernel))
    exact ⟨_, _, ⟨[], "loop".toList, [], by decide +kernel, .done, by decide, by decide, .inl ⟨by decide, rfl, rfl⟩⟩, rfl, rfl⟩) _ _ ⟨rfl, rfl⟩).2

/-- `k` references one after the other: `a`, `aa`, … -/
def chain (k : Nat) : Parsed where
  sections := [("s".toList, (List.range k).map fun i => (List.replicate (i + 1) 'a', refText (List.replicate (i + 2) 'a')))]
  defaults := [(List.replicate (k + 1) 'a', "x".toList)]

example : read (chain 10) "s".toList "a".toList = .ok "x".toList := by decide +kernel
example : read (chain 11) "s".toList "a".toList = .error .depth := by decide +kernel

example : ∃ p, readCfg ["[DEFAULT]".toList, "n = 5".toList, "[entry]".toList, "model = A".toList] = .ok p ∧
    readItems p "entry".toList = .ok [("model", "A".toList), ("n", "5".toList)] := by
  obtain ⟨p, hp⟩ : ∃ p, readCfg ["[DEFAULT]".toList, "n = 5".toList, "[entry]".toList, "model = A".toList] = .ok p := ⟨_, rfl⟩
  refine ⟨p, hp, C136_plain_file _ p hp (by decide +kernel) ("entry".toList, _) ?_⟩
  cases hp
  decide +kernel

example : ∃ p', setOption demo "entry".toList "predict".toList "$$${name}".toList = .ok p' ∧ read p' "entry".toList "predict".toList = .ok "$PbTe".toList := by
  refine ⟨_, rfl, ?_⟩
  decide +kernel

example : setOption demo "entry".toList "predict".toList "5$".toList = .error .valueError := by decide +kernel
/-- accepted, but not readable: two colons -/
example : ∃ p', setOption demo "entry".toList "predict".toList "${a:b:c}".toList = .ok p' ∧ read p' "entry".toList "predict".toList = .error .syntaxError := by
  refine ⟨_, rfl, ?_⟩
  decide +kernel

end TEflow.CfgRef
