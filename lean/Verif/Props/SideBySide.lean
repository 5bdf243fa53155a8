import Verif.Model.SideBySide

/-! # C139: runs of the tools at the same time -/

namespace TEflow.SideBySide

open Interface TableFile ToolRuns

/-! ## Specification -/

/-- the files after texts have been written one after the other -/
def written (writes : List (List Char × List Char)) (fs : Files) : Files := writes.foldl (fun fs p => fs.write p.1 p.2) fs

/-- a run that nothing disturbs: the files afterwards and how it ends -/
def Tool.alone {ρ : Type} (t : Tool ρ) (fs : Files) : Files × ρ := (written (t.effect fs).1 fs, (t.effect fs).2)

/-- the files that the run writes -/
def Tool.outputs {ρ : Type} (t : Tool ρ) (fs : Files) : List (List Char) := (t.effect fs).1.map Prod.fst

/-- what the run does depends on the contents of its input files only -/
def Tool.Reads {ρ : Type} (t : Tool ρ) (fs : Files) : Prop := ∀ fs' : Files, (∀ n ∈ t.inputs, fs' n = fs n) → t.effect fs' = t.effect fs

section
variable {ι : Type} [DecidableEq ι] {ρ : ι → Type}

/-- no run writes a file that another run reads or writes -/
def Apart (t : (i : ι) → Tool (ρ i)) (fs : Files) : Prop :=
  ∀ i j, i ≠ j → ∀ n ∈ (t i).outputs fs, n ∉ (t j).inputs ∧ n ∉ (t j).outputs fs

/-- one run after the other -/
def oneByOne (t : (i : ι) → Tool (ρ i)) (order : List ι) (fs : Files) : Files := order.foldl (fun fs i => ((t i).alone fs).1) fs

end

/-! ## Acts -/

def perform (acts : List Act) (fs : Files) : Files := acts.foldl Act.on fs

def Act.name : Act → List Char
  | .create n => n
  | .put n _ => n

theorem on_at (a : Act) (f g : Files) (n : List Char) (h : f n = g n) : a.on f n = a.on g n := by
  cases a with
  | create m => simp only [Act.on, Files.write]; split <;> [rfl; exact h]
  | put m c =>
    simp only [Act.on, Files.write]
    split
    · next e => subst e; rw [h]
    · exact h

theorem on_other (a : Act) (f : Files) (n : List Char) (h : n ≠ a.name) : a.on f n = f n := by
  cases a <;> simp only [Act.on, Files.write, Act.name] at * <;> rw [if_neg h]

theorem perform_append (a b : List Act) (fs : Files) : perform (a ++ b) fs = perform b (perform a fs) := List.foldl_append ..

theorem perform_puts (n : List Char) (t : List Char) (fs : Files) (p : List Char) (h : fs n = some p) :
    perform (t.map (.put n)) fs = fs.write n (p ++ t) := by
  induction t generalizing fs p with
  | nil =>
    funext m
    simp only [perform, List.map_nil, List.foldl_nil, Files.write, List.append_nil]
    split
    · next e => rw [e, h]
    · rfl
  | cons c t ih =>
    have h1 : (Act.put n c).on fs n = some (p ++ [c]) := by simp only [Act.on, Files.write, if_pos, h, Option.getD_some]
    have := ih ((Act.put n c).on fs) (p ++ [c]) h1
    rw [List.map_cons, show perform (Act.put n c :: t.map (.put n)) fs = perform (t.map (.put n)) ((Act.put n c).on fs) from rfl, this]
    funext m
    simp only [Act.on, Files.write, List.append_assoc, List.cons_append, List.nil_append]
    split <;> rfl

theorem perform_actsOf (w : List (List Char × List Char)) (fs : Files) : perform (actsOf w) fs = written w fs := by
  induction w generalizing fs with
  | nil => rfl
  | cons p w ih =>
    rw [show actsOf (p :: w) = (Act.create p.1 :: p.2.map (.put p.1)) ++ actsOf w from rfl, perform_append, ih]
    rw [show perform (Act.create p.1 :: p.2.map (.put p.1)) fs = perform (p.2.map (.put p.1)) (fs.write p.1 []) from rfl,
      perform_puts p.1 p.2 (fs.write p.1 []) [] (by simp [Files.write])]
    rw [show written (p :: w) fs = written w (fs.write p.1 p.2) from rfl]
    congr 1
    funext m
    simp only [Files.write, List.nil_append]
    split <;> rfl

theorem actsOf_name (w : List (List Char × List Char)) (a : Act) (h : a ∈ actsOf w) : a.name ∈ w.map Prod.fst := by
  obtain ⟨l, hl, ha⟩ := List.mem_flatten.1 h
  obtain ⟨p, hp, rfl⟩ := List.mem_map.1 hl
  refine List.mem_map.2 ⟨p, hp, ?_⟩
  rcases List.mem_cons.1 ha with rfl | ha
  · rfl
  · obtain ⟨c, -, rfl⟩ := List.mem_map.1 ha
    rfl

theorem perform_at (acts : List Act) (f g : Files) (n : List Char) (h : f n = g n) : perform acts f n = perform acts g n := by
  induction acts generalizing f g with
  | nil => exact h
  | cons a acts ih => exact ih _ _ (on_at a f g n h)

theorem perform_other (acts : List Act) (f : Files) (n : List Char) (h : ∀ a ∈ acts, n ≠ a.name) : perform acts f n = f n := by
  induction acts generalizing f with
  | nil => rfl
  | cons a acts ih =>
    rw [show perform (a :: acts) f = perform acts (a.on f) from rfl, ih _ fun b hb => h b (by simp [hb]), on_other a f n (h a (by simp))]

theorem written_at (w : List (List Char × List Char)) (f g : Files) (n : List Char) (h : f n = g n) : written w f n = written w g n := by
  rw [← perform_actsOf, ← perform_actsOf]; exact perform_at _ _ _ _ h

theorem written_other (w : List (List Char × List Char)) (f : Files) (n : List Char) (h : n ∉ w.map Prod.fst) : written w f n = f n := by
  rw [← perform_actsOf]
  refine perform_other _ _ _ ?_
  rintro a ha rfl
  exact h (actsOf_name w a ha)

theorem written_hit (w : List (List Char × List Char)) (f g : Files) (n : List Char) (h : n ∈ w.map Prod.fst) : written w f n = written w g n := by
  induction w generalizing f g with
  | nil => simp at h
  | cons p w ih =>
    rw [show written (p :: w) f = written w (f.write p.1 p.2) from rfl, show written (p :: w) g = written w (g.write p.1 p.2) from rfl]
    by_cases hm : n ∈ w.map Prod.fst
    · exact ih _ _ hm
    · refine written_at w _ _ n ?_
      have : n = p.1 := by simpa [hm] using h
      simp [Files.write, this]

/-! ## The invariant -/

section
variable {ι : Type} [DecidableEq ι] {ρ : ι → Type}

/-- where a process is, compared with an undisturbed run from `fs` -/
def Where (t : Tool ρ') (fs files : Files) : Proc ρ' → Prop
  | .reading todo seen => (∃ done, t.inputs = done ++ todo ∧ ∀ n ∈ done, seen n = fs n) ∧ ∀ n ∈ t.outputs fs, files n = fs n
  | .writing todo r => r = (t.effect fs).2 ∧ ∃ done, actsOf (t.effect fs).1 = done ++ todo ∧ ∀ n ∈ t.outputs fs, files n = perform done fs n

structure Inv (t : (i : ι) → Tool (ρ i)) (fs : Files) (s : System ρ) : Prop where
  places : ∀ i, Where (t i) fs s.files (s.proc i)
  rest : ∀ n, (∀ i, n ∉ (t i).outputs fs) → s.files n = fs n

theorem Where.congr {ρ' : Type} {t : Tool ρ'} {fs f g : Files} {p : Proc ρ'} (h : Where t fs f p) (e : ∀ n ∈ t.outputs fs, g n = f n) : Where t fs g p := by
  cases p with
  | reading todo seen => exact ⟨h.1, fun n hn => (e n hn).trans (h.2 n hn)⟩
  | writing todo r =>
    obtain ⟨h1, done, h2, h3⟩ := h
    exact ⟨h1, done, h2, fun n hn => (e n hn).trans (h3 n hn)⟩

/-- the files change at the outputs of the process only -/
theorem step_files {ρ' : Type} {t : Tool ρ'} {fs files : Files} {p : Proc ρ'} (h : Where t fs files p) (n : List Char) (hn : n ∉ t.outputs fs) :
    (t.step files p).1 n = files n := by
  cases p with
  | reading todo seen => cases todo <;> rfl
  | writing todo r =>
    cases todo with
    | nil => rfl
    | cons a todo =>
      obtain ⟨-, done, h2, -⟩ := h
      refine on_other a files n ?_
      rintro rfl
      exact hn (actsOf_name _ a (by rw [h2]; simp))

theorem step_where {ρ' : Type} {t : Tool ρ'} {fs files : Files} {p : Proc ρ'} (hr : t.Reads fs) (h : Where t fs files p)
    (hin : ∀ n ∈ t.inputs, n ∉ t.outputs fs → files n = fs n) : Where t fs (t.step files p).1 (t.step files p).2 := by
  cases p with
  | reading todo seen =>
    cases todo with
    | nil =>
      obtain ⟨⟨done, h1, h2⟩, h3⟩ := h
      have e : t.effect seen = t.effect fs := hr seen fun n hn => h2 n (by rwa [h1, List.append_nil] at hn)
      simp only [Tool.step, Where, e]
      exact ⟨trivial, [], rfl, h3⟩
    | cons m todo =>
      obtain ⟨⟨done, h1, h2⟩, h3⟩ := h
      refine ⟨⟨done ++ [m], by rw [h1]; simp, ?_⟩, h3⟩
      intro n hn
      by_cases hm : n = m
      · subst hm
        simp only [if_pos]
        by_cases ho : n ∈ t.outputs fs
        · exact h3 n ho
        · exact hin n (by rw [h1]; simp) ho
      · simp only [if_neg hm]
        exact h2 n (by simpa [hm] using hn)
  | writing todo r =>
    cases todo with
    | nil => exact h
    | cons a todo =>
      obtain ⟨h1, done, h2, h3⟩ := h
      refine ⟨h1, done ++ [a], by rw [h2]; simp, ?_⟩
      intro n hn
      rw [perform_append]
      exact on_at a _ _ n (h3 n hn)

theorem Inv.step {t : (i : ι) → Tool (ρ i)} {fs : Files} (hr : ∀ i, (t i).Reads fs) (ha : Apart t fs) {s : System ρ} (h : Inv t fs s) (i : ι) :
    Inv t fs (s.step t i) := by
  constructor
  · intro j
    by_cases hj : j = i
    · subst hj
      simp only [System.step, Function.update_self]
      refine step_where (hr j) (h.places j) fun n hn ho => ?_
      refine h.rest n fun k hk => ?_
      by_cases hkj : k = j
      · subst hkj; exact ho hk
      · exact (ha k j hkj n hk).1 hn
    · simp only [System.step, Function.update_of_ne hj]
      refine (h.places j).congr fun n hn => ?_
      exact step_files (h.places i) n (ha j i hj n hn).2
  · intro n hn
    rw [show (s.step t i).files = ((t i).step s.files (s.proc i)).1 from rfl, step_files (h.places i) n (hn i)]
    exact h.rest n hn

theorem Inv.start (t : (i : ι) → Tool (ρ i)) (fs : Files) : Inv t fs (System.init t fs) :=
  ⟨fun _ => ⟨⟨[], rfl, by simp⟩, fun _ _ => rfl⟩, fun _ _ => rfl⟩

theorem Inv.run {t : (i : ι) → Tool (ρ i)} {fs : Files} (hr : ∀ i, (t i).Reads fs) (ha : Apart t fs) (schedule : List ι) :
    ∀ {s : System ρ}, Inv t fs s → Inv t fs (s.run t schedule) := by
  induction schedule with
  | nil => exact fun h => h
  | cons i l ih => exact fun h => ih (h.step hr ha i)

/-! ## The theorems -/

/-- **C139** Whatever the schedule, a run that has ended has ended as it would have ended alone, and has left its files as it would have left them
alone, no matter where the other runs are or whether they were killed; files that no run writes are as before. -/
theorem C139_undisturbed (t : (i : ι) → Tool (ρ i)) (fs : Files) (hr : ∀ i, (t i).Reads fs) (ha : Apart t fs) (schedule : List ι) :
    (∀ i r, (((System.init t fs).run t schedule).proc i).result? = some r →
      r = ((t i).alone fs).2 ∧ ∀ n ∈ (t i).outputs fs, ((System.init t fs).run t schedule).files n = ((t i).alone fs).1 n) ∧
    (∀ n, (∀ i, n ∉ (t i).outputs fs) → ((System.init t fs).run t schedule).files n = fs n) := by
  have h := Inv.run hr ha schedule (Inv.start t fs)
  refine ⟨fun i r e => ?_, h.rest⟩
  have hp := h.places i
  generalize ((System.init t fs).run t schedule).proc i = p at hp e
  cases p with
  | reading todo seen => cases e
  | writing todo r' =>
    cases todo with
    | cons a l => cases e
    | nil =>
      cases e
      obtain ⟨h1, done, h2, h3⟩ := hp
      rw [List.append_nil] at h2
      refine ⟨h1, fun n hn => ?_⟩
      rw [h3 n hn, ← h2, perform_actsOf]
      rfl

/-- the effect of runs that are apart does not depend on whether others have run -/
theorem oneByOne_spec (t : (i : ι) → Tool (ρ i)) (fs : Files) (hr : ∀ i, (t i).Reads fs) (ha : Apart t fs) (order : List ι) (hn : order.Nodup) :
    (∀ n, (∀ i ∈ order, n ∉ (t i).outputs fs) → oneByOne t order fs n = fs n) ∧
    (∀ i ∈ order, ∀ n ∈ (t i).outputs fs, oneByOne t order fs n = ((t i).alone fs).1 n) := by
  induction order using List.reverseRecOn with
  | nil => exact ⟨fun _ _ => rfl, by simp⟩
  | append_singleton l i ih =>
    obtain ⟨hl, hi⟩ : l.Nodup ∧ i ∉ l := by
      rw [List.nodup_append] at hn
      exact ⟨hn.1, fun h => hn.2.2 i h i (by simp) rfl⟩
    obtain ⟨ih1, ih2⟩ := ih hl
    have e : (t i).effect (oneByOne t l fs) = (t i).effect fs := by
      refine hr i _ fun n hin => ih1 n fun j hj ho => ?_
      have hne : j ≠ i := by rintro rfl; exact hi hj
      exact (ha j i hne n ho).1 hin
    have e1 : oneByOne t (l ++ [i]) fs = written ((t i).effect fs).1 (oneByOne t l fs) := by
      rw [oneByOne, List.foldl_append]
      show ((t i).alone (oneByOne t l fs)).1 = _
      rw [Tool.alone, e]
    rw [e1]
    constructor
    · intro n h
      rw [written_other _ _ n (h i (by simp))]
      exact ih1 n fun j hj => h j (by simp [hj])
    · intro j hj n ho
      by_cases hji : j = i
      · subst hji
        exact written_hit _ _ _ n ho
      · rw [written_other _ _ n (ha j i hji n ho).2]
        exact ih2 j (by simpa [hji] using hj) n ho

/-- **C139** When all runs have ended, the files are as after the runs one by one, in any order. -/
theorem C139_serial (t : (i : ι) → Tool (ρ i)) (fs : Files) (hr : ∀ i, (t i).Reads fs) (ha : Apart t fs) (schedule order : List ι)
    (hend : ∀ i, ∃ r, (((System.init t fs).run t schedule).proc i).result? = some r) (hn : order.Nodup) (hall : ∀ i, i ∈ order) :
    ((System.init t fs).run t schedule).files = oneByOne t order fs := by
  obtain ⟨h1, h2⟩ := C139_undisturbed t fs hr ha schedule
  obtain ⟨o1, o2⟩ := oneByOne_spec t fs hr ha order hn
  funext n
  by_cases h : ∃ i, n ∈ (t i).outputs fs
  · obtain ⟨i, hi⟩ := h
    obtain ⟨r, hri⟩ := hend i
    rw [(h1 i r hri).2 n hi, o2 i (hall i) n hi]
  · have h : ∀ i, n ∉ (t i).outputs fs := fun i hi => h ⟨i, hi⟩
    rw [h2 n h, o1 n fun i _ => h i]

theorem prefix_acts (w : List (List Char × List Char)) (done todo : List Act) (h : actsOf w = done ++ todo) (fs : Files) (n : List Char) :
    perform done fs n = fs n ∨ ∃ text, (n, text) ∈ w ∧ ∃ p, p <+: text ∧ perform done fs n = some p := by
  induction w generalizing done fs with
  | nil =>
    have : done = [] := (List.append_eq_nil_iff.1 h.symm).1
    subst this; exact .inl rfl
  | cons q w ih =>
    obtain ⟨name, text⟩ := q
    have h' : (Act.create name :: text.map (.put name)) ++ actsOf w = done ++ todo := h
    have part : ∀ k, perform (Act.create name :: (text.take k).map (.put name)) fs = fs.write name (text.take k) := by
      intro k
      rw [show perform (Act.create name :: (text.take k).map (.put name)) fs = perform ((text.take k).map (.put name)) (fs.write name []) from rfl,
        perform_puts name (text.take k) (fs.write name []) [] (by simp [Files.write])]
      funext m
      simp only [Files.write, List.nil_append]
      split <;> rfl
    rcases List.append_eq_append_iff.1 h' with ⟨d, hd, hw⟩ | ⟨d, hd, -⟩
    · -- the first text is complete
      rw [hd, perform_append]
      have e := part text.length
      rw [List.take_length] at e
      rw [e]
      rcases ih d hw (fs.write name text) with h1 | ⟨u, hu, p, hp, e1⟩
      · rw [h1]
        by_cases hn : n = name
        · subst hn
          exact .inr ⟨text, by simp, text, List.prefix_refl _, by simp [Files.write]⟩
        · exact .inl (by simp [Files.write, hn])
      · exact .inr ⟨u, by simp [hu], p, hp, e1⟩
    · -- in the middle of the first text
      cases done with
      | nil => exact .inl rfl
      | cons a l =>
        rw [List.cons_append, List.cons.injEq] at hd
        obtain ⟨rfl, hd⟩ := hd
        obtain ⟨u, v, ht, rfl, -⟩ := List.map_eq_append_iff.1 hd
        have e := part u.length
        rw [ht, List.take_left'] at e
        · rw [e]
          by_cases hn : n = name
          · subst hn
            exact .inr ⟨text, by simp, u, ⟨v, ht.symm⟩, by simp [Files.write]⟩
          · exact .inl (by simp [Files.write, hn])
        · rfl

/-- **C139** At any moment (also if runs have been killed by then) a file that a run writes is as it was, or holds the beginning of a text that
this run writes to it. -/
theorem C139_moment (t : (i : ι) → Tool (ρ i)) (fs : Files) (hr : ∀ i, (t i).Reads fs) (ha : Apart t fs) (schedule : List ι) (i : ι)
    (n : List Char) (hn : n ∈ (t i).outputs fs) :
    ((System.init t fs).run t schedule).files n = fs n ∨
      ∃ text, (n, text) ∈ ((t i).effect fs).1 ∧ ∃ p, p <+: text ∧ ((System.init t fs).run t schedule).files n = some p := by
  have hp := (Inv.run hr ha schedule (Inv.start t fs)).places i
  generalize ((System.init t fs).run t schedule).proc i = p at hp
  cases p with
  | reading todo seen => exact .inl (hp.2 n hn)
  | writing todo r =>
    obtain ⟨-, done, h2, h3⟩ := hp
    rw [h3 n hn]
    exact prefix_acts _ done todo h2 fs n

/-- what is left to do -/
def left (t : Tool ρ') (fs : Files) : Proc ρ' → Nat
  | .reading todo _ => todo.length + 1 + (actsOf (t.effect fs).1).length
  | .writing todo _ => todo.length

theorem left_step {ρ' : Type} {t : Tool ρ'} {fs files : Files} {p : Proc ρ'} (hr : t.Reads fs) (h : Where t fs files p) :
    left t fs (t.step files p).2 = left t fs p - 1 := by
  cases p with
  | reading todo seen =>
    cases todo with
    | nil =>
      obtain ⟨⟨done, h1, h2⟩, h3⟩ := h
      have e : t.effect seen = t.effect fs := hr seen fun n hn => h2 n (by rwa [h1, List.append_nil] at hn)
      simp only [Tool.step, left, e, List.length_nil]
      omega
    | cons m todo =>
      simp only [Tool.step, left, List.length_cons]
      omega
  | writing todo r => cases todo <;> simp [Tool.step, left]

/-- **C139** Every run ends: it needs one step per input file, one to compute, and one per file and per character that it writes, however these
steps are mixed with those of the others. -/
theorem C139_ends (t : (i : ι) → Tool (ρ i)) (fs : Files) (hr : ∀ i, (t i).Reads fs) (ha : Apart t fs) (schedule : List ι) (i : ι)
    (h : (t i).inputs.length + 1 + (((t i).effect fs).1.map fun p => 1 + p.2.length).sum ≤ schedule.count i) :
    ∃ r, (((System.init t fs).run t schedule).proc i).result? = some r := by
  have len : ∀ w : List (List Char × List Char), (actsOf w).length = (w.map fun p => 1 + p.2.length).sum := by
    intro w
    induction w with
    | nil => rfl
    | cons p w ih =>
      rw [show actsOf (p :: w) = (Act.create p.1 :: p.2.map (.put p.1)) ++ actsOf w from rfl, List.length_append, ih]
      simp only [List.length_cons, List.length_map, List.map_cons, List.sum_cons]
      omega
  have key : ∀ (schedule : List ι) (s : System ρ), Inv t fs s → left (t i) fs ((s.run t schedule).proc i) = left (t i) fs (s.proc i) - schedule.count i := by
    intro schedule
    induction schedule with
    | nil => intro s _; rfl
    | cons j l ih =>
      intro s hs
      rw [show s.run t (j :: l) = (s.step t j).run t l from rfl, ih _ (hs.step hr ha j)]
      by_cases hj : j = i
      · subst hj
        simp only [System.step, Function.update_self, List.count_cons_self]
        rw [left_step (hr j) (hs.places j)]
        omega
      · simp only [System.step, Function.update_of_ne (Ne.symm hj), List.count_cons_of_ne hj]
  have h0 := key schedule _ (Inv.start t fs)
  rw [← len] at h
  have h1 : left (t i) fs ((System.init t fs).proc i) = (t i).inputs.length + 1 + (actsOf ((t i).effect fs).1).length := rfl
  have h2 : left (t i) fs (((System.init t fs).run t schedule).proc i) = 0 := by omega
  generalize ((System.init t fs).run t schedule).proc i = p at h2
  cases p with
  | reading todo seen => simp only [left] at h2; omega
  | writing todo r =>
    cases todo with
    | nil => exact ⟨r, rfl⟩
    | cons a l => simp [left] at h2

/-- **C139** Runs that do not read their own outputs can be killed at any moment and repeated: the files are then as if nothing had happened. -/
theorem C139_again (t : (i : ι) → Tool (ρ i)) (fs : Files) (hr : ∀ i, (t i).Reads fs) (ha : Apart t fs)
    (hown : ∀ i, ∀ n ∈ (t i).outputs fs, n ∉ (t i).inputs) (schedule order : List ι) (hn : order.Nodup) (hall : ∀ i, i ∈ order) :
    oneByOne t order ((System.init t fs).run t schedule).files = oneByOne t order fs ∧
    ∀ i, ((t i).alone ((System.init t fs).run t schedule).files).2 = ((t i).alone fs).2 := by
  obtain ⟨-, h2⟩ := C139_undisturbed t fs hr ha schedule
  generalize ((System.init t fs).run t schedule).files = g at h2
  have hin : ∀ i, ∀ n ∈ (t i).inputs, g n = fs n := by
    intro i n hi
    refine h2 n fun j hj => ?_
    by_cases hji : j = i
    · subst hji; exact hown j n hj hi
    · exact (ha j i hji n hj).1 hi
  have e : ∀ i, (t i).effect g = (t i).effect fs := fun i => hr i g (hin i)
  have hr' : ∀ i, (t i).Reads g := fun i fs' h => by rw [e i]; exact hr i fs' fun n hn => (h n hn).trans (hin i n hn)
  have ha' : Apart t g := by
    intro i j hij n hn
    simp only [Tool.outputs, e] at hn ⊢
    exact ha i j hij n hn
  refine ⟨?_, fun i => by simp only [Tool.alone, e]⟩
  obtain ⟨o1, o2⟩ := oneByOne_spec t fs hr ha order hn
  obtain ⟨p1, p2⟩ := oneByOne_spec t g hr' ha' order hn
  funext n
  by_cases h : ∃ i, n ∈ (t i).outputs fs
  · obtain ⟨i, hi⟩ := h
    have hi' : n ∈ (t i).outputs g := by simpa only [Tool.outputs, e] using hi
    rw [p2 i (hall i) n hi', o2 i (hall i) n hi]
    simp only [Tool.alone, e]
    exact written_hit _ _ _ n hi
  · have h : ∀ i, n ∉ (t i).outputs fs := fun i hi => h ⟨i, hi⟩
    have h' : ∀ i, n ∉ (t i).outputs g := fun i => by simpa only [Tool.outputs, e] using h i
    rw [p1 n fun i _ => h' i, o1 n fun i _ => h i, h2 n h]

end

/-! ## The tools -/

theorem mapM_congr {α β : Type} {f g : α → Except PyErr β} (l : List α) (h : ∀ a ∈ l, f a = g a) : l.mapM f = l.mapM g := by
  induction l with
  | nil => rfl
  | cons a l ih =>
    rw [List.mapM_cons, List.mapM_cons, h a (by simp), ih fun b hb => h b (by simp [hb])]

/-- **C139** `tef-interp` as a process: alone it is the run of C114, and it depends on its input and on an existing output only. -/
theorem C139_interp (float : List Char → Except PyErr Num) (argsort : List ℚ → List Nat)
    (interp : List Char → Option ℚ → List ℚ → List ℚ → List ℚ → Except PyErr (List ℚ)) (info : List Char) (o : InterpOptions) (fs : Files) :
    (interpTool float argsort interp info o).alone fs = doInterp float argsort interp info o fs ∧
    (interpTool float argsort interp info o).Reads fs := by
  refine ⟨by
    unfold doInterp Tool.alone interpTool
    dsimp only
    generalize interpText float argsort interp info o fs = r
    cases r <;> rfl, fun fs' h => ?_⟩
  simp only [interpTool] at h ⊢
  rw [interpText, interpText, h o.inputfile (by simp), h o.output (by simp)]

/-- **C139** `tef-mixing` as a process: alone it is the run of C115, and it depends on its inputs only. -/
theorem C139_mixing (float : List Char → Except PyErr Num) (info : List Char) (o : MixOptions) (fs : Files) :
    (mixTool float info o).alone fs = doMixing float info o fs ∧ (mixTool float info o).Reads fs := by
  constructor
  · simp only [Tool.alone, mixTool, doMixing]
    cases mixedData float o fs with
    | error e => rfl
    | ok a =>
      simp only
      split
      · cases saveRows a with
        | error e => rfl
        | ok rows =>
          simp only
          cases toFile (fixed 4) o.bare false (.rows rows) "Mixed datafiles".toList info (.names o.labels) <;> rfl
      · cases screenRows a <;> rfl
  · intro fs' h
    have : mixedData float o fs' = mixedData float o fs := by
      unfold mixedData
      rw [mapM_congr o.inputfile fun f hf => by
        show readInput float fs' f = readInput float fs f
        rw [readInput, readInput, h f hf]]
    simp only [mixTool, this]

/-- **C139** `tef-mixing --extend` as a process: alone it is the run of C119, and it depends on its inputs only. -/
theorem C139_extend (info : List Char) (o : TextRuns.ExtendOptions) (fs : Files) :
    (extendTool info o).alone fs = TextRuns.doExtend info o fs ∧ (extendTool info o).Reads fs := by
  constructor
  · simp only [Tool.alone, extendTool, TextRuns.doExtend]
    cases o.inputfile.mapM (TextRuns.readLines fs) with
    | error e => rfl
    | ok files => simp only; split <;> rfl
  · intro fs' h
    simp only [extendTool]
    rw [mapM_congr o.inputfile fun f hf => by
      show TextRuns.readLines fs' f = TextRuns.readLines fs f
      rw [TextRuns.readLines, TextRuns.readLines, h f hf]]

/-- **C139** `tef-refine` as a process: alone it is the run of C119, and it depends on its input only. -/
theorem C139_refine (int : List Char → Except PyErr Int) (info : List Char) (o : TextRuns.RefineOptions) (fs : Files) :
    (refineTool int info o).alone fs = TextRuns.doRefine int info o fs ∧ (refineTool int info o).Reads fs := by
  constructor
  · simp only [Tool.alone, refineTool, TextRuns.doRefine]
    cases fs o.inputfile with
    | none => rfl
    | some text =>
      simp only
      cases TextRuns.usecols int o.column <;> rfl
  · intro fs' h
    simp only [refineTool] at h ⊢
    rw [h o.inputfile (by simp)]

/-- **C139** `tef-cutoff` as a process: alone it is the run of C120, and it depends on its input only. -/
theorem C139_cutoff {V : Type} (env : CutRun.Env V) (title : List Char) (o : CutRun.CutOptions V) (fs : Files) :
    (cutTool env title o).alone fs = CutRun.doCutoff env title o fs ∧ (cutTool env title o).Reads fs := by
  refine ⟨by
    unfold CutRun.doCutoff Tool.alone cutTool
    dsimp only
    generalize CutRun.cutText env title o fs = r
    cases r <;> rfl, fun fs' h => ?_⟩
  simp only [cutTool] at h ⊢
  rw [CutRun.cutText, CutRun.cutText, h o.inputfile (by simp)]

/-- **C139** `tef-ztdev` and `tef-engout` as processes: alone they are the runs of C137, and they depend on their input only. -/
theorem C139_device (env : DeviceRun.Env) (title : List Char) (o : DeviceRun.ZtOptions) (p : DeviceRun.EngOptions) (fs : Files) :
    (ztdevTool env title o).alone fs = DeviceRun.doZtdev env title o fs ∧ (ztdevTool env title o).Reads fs ∧
    (engoutTool env title p).alone fs = DeviceRun.doEngout env title p fs ∧ (engoutTool env title p).Reads fs := by
  refine ⟨by
    unfold DeviceRun.doZtdev Tool.alone ztdevTool
    dsimp only
    generalize DeviceRun.tableText env (DeviceRun.ztRows env o.yita) o.bare title DeviceRun.ztLabels (fs o.inputfile) = r
    cases r <;> rfl, fun fs' h => ?_,
    by
    unfold DeviceRun.doEngout Tool.alone engoutTool
    dsimp only
    generalize DeviceRun.tableText env (DeviceRun.engRows env p) p.bare title DeviceRun.engLabels (fs p.inputfile) = r
    cases r <;> rfl, fun fs' h => ?_⟩
  · simp only [ztdevTool] at h ⊢
    rw [h o.inputfile (by simp)]
  · simp only [engoutTool] at h ⊢
    rw [h p.inputfile (by simp)]

/-- **C139** `tef-band` as a process: alone it is the run of C125, and it depends on its input only. -/
theorem C139_band (E : BandRun.Env) (o : BandRun.Options) (fs : Files) :
    (bandTool E o).alone fs = BandRun.doBand E o fs ∧ (bandTool E o).Reads fs := by
  refine ⟨by
    unfold BandRun.doBand Tool.alone bandTool
    dsimp only
    generalize BandRun.text E o fs = r
    cases r <;> rfl, fun fs' h => ?_⟩
  simp only [bandTool] at h ⊢
  have e := h o.inputfile (by simp)
  unfold BandRun.text
  cases o.modelling with
  | none => simp only [BandRun.simText, e]
  | some m => simp only [BandRun.modelText, BandRun.modelTable, e]

/-- a text of the form `file: name` names a file -/
def fileNamed (text : List Char) : Option (List Char) :=
  if Loader.startsWith "file:".toList (Loader.strip text) then some (Loader.strip ((Loader.strip text).drop 5)) else none

/-- `more` holds the instrument files that the configuration (with the overriding options) names -/
def FormatFiles (env : FormatRun.Env) (o : FormatRun.Options) (fs : Files) (more : List (List Char)) : Prop :=
  o.data = false → ∀ text entry, fs o.inputfile = some text → env.entry text = .ok (some entry) →
    ∀ k ∈ ["ZEM", "CTA", "LFA"], ∀ v, PyDict.get? (PyDict.update entry (o.stored.map FormatRun.overriding)) k = some v →
      ∀ name, fileNamed v = some name → name ∈ more

theorem runInstr_congr {δ : Type} (rf rf' : List Char → Except PyErr (List Char)) (parser : List Char → Except PyErr δ) (v : List Char)
    (h : ∀ name, fileNamed v = some name → rf name = rf' name) : Loader.runInstr rf parser v = Loader.runInstr rf' parser v := by
  unfold Loader.runInstr Loader.instrText
  simp only
  by_cases hs : Loader.startsWith "file:".toList (Loader.strip v) = true
  · rw [if_pos hs, if_pos hs, h _ (by rw [fileNamed, if_pos hs])]
  · rw [if_neg hs, if_neg hs]

theorem parseTEfile_congr (rf rf' : List Char → Except PyErr (List Char)) (weight eval : List Char → Except PyErr ℚ) (float : List Char → Option ℚ)
    (entry : Option (PyDict String (List Char))) (specify : List (String × List Char))
    (h : ∀ e, entry = some e → ∀ k ∈ ["ZEM", "CTA", "LFA"], ∀ v, PyDict.get? (PyDict.update e specify) k = some v →
      ∀ name, fileNamed v = some name → rf name = rf' name) :
    Loader.parseTEfile ⟨rf, weight, eval, float⟩ entry (some specify) = Loader.parseTEfile ⟨rf', weight, eval, float⟩ entry (some specify) := by
  cases entry with
  | none => rfl
  | some e =>
    have hk := h e rfl
    unfold Loader.parseTEfile
    simp only
    generalize PyDict.update e specify = d at hk
    cases PyDict.get? d "sample" with
    | none => rfl
    | some sample =>
      simp only
      cases weight sample with
      | error x => rfl
      | ok w =>
        simp only
        have el : Loader.runElectrical ⟨rf, weight, eval, float⟩ (PyDict.get? d "ZEM") (PyDict.get? d "CTA") =
            Loader.runElectrical ⟨rf', weight, eval, float⟩ (PyDict.get? d "ZEM") (PyDict.get? d "CTA") := by
          unfold Loader.runElectrical
          cases hz : PyDict.get? d "ZEM" with
          | some z => exact runInstr_congr _ _ _ _ (hk "ZEM" (by simp) z hz)
          | none =>
            cases hc : PyDict.get? d "CTA" with
            | some c => exact runInstr_congr _ _ _ _ (hk "CTA" (by simp) c hc)
            | none => rfl
        have lf : ∀ lfa, PyDict.get? d "LFA" = some lfa → Loader.runInstr rf (Loader.parseLFA float) lfa = Loader.runInstr rf' (Loader.parseLFA float) lfa :=
          fun lfa hl => runInstr_congr _ _ _ _ (hk "LFA" (by simp) lfa hl)
        generalize PyDict.get? d "ZEM" = z at el
        generalize PyDict.get? d "CTA" = c at el
        generalize PyDict.get? d "LFA" = l at lf
        cases z <;> cases c <;> first | rfl | skip
        all_goals
          simp only
          rw [el]
          cases l with
          | none => rfl
          | some lfa => simp only; rw [lf lfa rfl]; rfl

/-- **C139** `tef-format` as a process: alone it is the run of C118, and it depends on its input, on an existing output and on the instrument files
that the configuration names. -/
theorem C139_format (env : FormatRun.Env) (info : List Char) (o : FormatRun.Options) (fs : Files) (more : List (List Char)) :
    (formatTool env info o more).alone fs = FormatRun.doFormat env info o fs ∧
    (FormatFiles env o fs more → (formatTool env info o more).Reads fs) := by
  refine ⟨by
    unfold FormatRun.doFormat Tool.alone formatTool
    dsimp only
    generalize FormatRun.formatText env info o fs = r
    cases r <;> rfl, fun hm fs' h => ?_⟩
  simp only [formatTool] at h ⊢
  have hi := h o.inputfile (by simp)
  have ho := h o.output (by simp)
  have e : FormatRun.inputData env o fs' = FormatRun.inputData env o fs := by
    unfold FormatRun.inputData FormatRun.readFile
    rw [hi]
    cases hf : fs o.inputfile with
    | none => rfl
    | some text =>
      simp only
      cases hd : o.data with
      | true => rfl
      | false =>
        simp only [Bool.false_eq_true, if_false]
        unfold FormatRun.dataFromInstruments
        cases hen : env.entry text with
        | error x => rfl
        | ok entry =>
          simp only
          rw [parseTEfile_congr (FormatRun.readFile fs') (FormatRun.readFile fs)]
          intro d hd' k hk v hv name hn
          subst hd'
          rw [FormatRun.readFile, FormatRun.readFile, h name (by simp [hm hd text d hf hen k hk v hv name hn])]
  rw [FormatRun.formatText, FormatRun.formatText, e, ho]

/-- `more` holds the data file that the configuration (with the options) names -/
def KappaFiles (o : KappaRun.Options) (fs : Files) (more : List (List Char)) : Prop :=
  ∀ text p e v name, fs o.inputfile = some text → CfgText.readCfg (KappaRun.rawLines text) = .ok p →
    PyDict.get? (KappaRun.updateCfg o.specify p.items) "entry".toList = some e → PyDict.get? e "expdata" = some v →
    "file:".toList.isPrefixOf (Loader.strip v) = true → name = Loader.strip ((Loader.strip v).drop 5) → name ∈ more

theorem untilError_alone (l : List (List Char × Except PyErr (List Char))) (fs : Files) :
    (written (untilError l).1 fs, (untilError l).2) = KappaRun.runWrites l fs := by
  induction l generalizing fs with
  | nil => rfl
  | cons p l ih =>
    obtain ⟨name, r⟩ := p
    cases r with
    | error e => rfl
    | ok t => exact ih (fs.write name t)

/-- **C139** `tef-kappa` as a process: alone it is the run of C124, and it depends on its input and on the data file that the configuration names. -/
theorem C139_kappa (E : KappaRun.Env) (o : KappaRun.Options) (fs : Files) (more : List (List Char)) :
    (kappaTool E o more).alone fs = KappaRun.doKappa E o fs ∧ (KappaFiles o fs more → (kappaTool E o more).Reads fs) := by
  constructor
  · unfold KappaRun.doKappa Tool.alone kappaTool
    dsimp only
    cases KappaRun.parseKappa E o.specify fs o.inputfile with
    | error e => rfl
    | ok r => exact untilError_alone _ fs
  · intro hm fs' h
    simp only [kappaTool] at h ⊢
    have e : KappaRun.parseKappa E o.specify fs' o.inputfile = KappaRun.parseKappa E o.specify fs o.inputfile := by
      unfold KappaRun.parseKappa
      rw [h o.inputfile (by simp)]
      cases hf : fs o.inputfile with
      | none => rfl
      | some text =>
        simp only
        cases hp : CfgText.readCfg (KappaRun.rawLines text) with
        | error x => rfl
        | ok p =>
          simp only
          cases he : PyDict.get? (KappaRun.updateCfg o.specify p.items) "entry".toList with
          | none => rfl
          | some e =>
            have hx : KappaRun.expdata E fs' e = KappaRun.expdata E fs e := by
              unfold KappaRun.expdata
              cases hv : PyDict.get? e "expdata" with
              | none => rfl
              | some v =>
                have : KappaRun.parseArray E.float fs' v = KappaRun.parseArray E.float fs v := by
                  unfold KappaRun.parseArray
                  by_cases hs : "file:".toList.isPrefixOf (Loader.strip v) = true
                  · rw [if_pos hs, if_pos hs, h _ (List.mem_cons_of_mem _ (hm text p e v _ hf hp he hv hs rfl))]
                  · rw [if_neg hs, if_neg hs]
                simp only [this]
            have hs : ∀ ob vars s, KappaRun.fitStep E fs' e ob vars s = KappaRun.fitStep E fs e ob vars s := by
              intro ob vars s
              simp only [KappaRun.fitStep, hx]
            simp only [KappaRun.parseRest, hs]
    simp only [e]

/-! ## Examples -/

/-- no column numbers here -/
def demoInt (_ : List Char) : Except PyErr Int := .error .valueError

/-- `tef-refine a.txt` and `tef-mixing --extend a.txt b.txt c.txt` -/
def demoTools : (i : Bool) → Tool (Except PyErr (if i then Unit else List Char))
  | true => refineTool demoInt "now".toList ⟨"a.txt".toList, [], "refined".toList, true, []⟩
  | false => extendTool "now".toList ⟨["a.txt".toList, "b.txt".toList], "c.txt".toList, true, false, none, []⟩

def demoFs : Files := fun n => if n = "a.txt".toList then some "1  2\n3 4\n".toList else if n = "b.txt".toList then some "8\n9\n".toList else none

theorem demo_reads (i : Bool) : (demoTools i).Reads demoFs := by
  cases i
  · exact (C139_extend _ _ _).2
  · exact (C139_refine demoInt _ _ _).2

theorem demo_outputs : (demoTools true).outputs demoFs = ["a_refined.txt".toList] ∧ (demoTools false).outputs demoFs = ["c.txt".toList] := by
  constructor <;> decide +kernel

theorem demo_apart : Apart demoTools demoFs := by
  have h1 : "a_refined.txt".toList ∉ (demoTools false).inputs ∧ "a_refined.txt".toList ∉ (demoTools false).outputs demoFs := by
    rw [demo_outputs.2]; decide +kernel
  have h2 : "c.txt".toList ∉ (demoTools true).inputs ∧ "c.txt".toList ∉ (demoTools true).outputs demoFs := by
    rw [demo_outputs.1]; decide +kernel
  intro i j hij n hn
  cases i <;> cases j <;> first | exact absurd rfl hij | skip
  · rw [demo_outputs.2, List.mem_singleton] at hn; subst hn; exact h2
  · rw [demo_outputs.1, List.mem_singleton] at hn; subst hn; exact h1

theorem demo_own (i : Bool) : ∀ n ∈ (demoTools i).outputs demoFs, n ∉ (demoTools i).inputs := by
  intro n hn
  cases i
  · rw [demo_outputs.2, List.mem_singleton] at hn; subst hn; decide +kernel
  · rw [demo_outputs.1, List.mem_singleton] at hn; subst hn; decide +kernel

/-- the two runs in turn, step by step, and the same if both were killed in the middle and repeated -/
example (k : Nat) : (∃ r, (((System.init demoTools demoFs).run demoTools ((List.replicate 40 [true, false]).flatten)).proc true).result? = some r) ∧
    oneByOne demoTools [true, false] ((System.init demoTools demoFs).run demoTools ((List.replicate k [true, false]).flatten)).files =
      oneByOne demoTools [false, true] demoFs := by
  constructor
  · refine C139_ends demoTools demoFs demo_reads demo_apart _ true ?_
    rw [show ((List.replicate 40 [true, false]).flatten).count true = 40 by decide +kernel]
    have : (demoTools true).inputs.length + 1 + (((demoTools true).effect demoFs).1.map fun p => 1 + p.2.length).sum = 11 := by decide +kernel
    omega
  · rw [(C139_again demoTools demoFs demo_reads demo_apart demo_own _ [true, false] (by decide) (by decide)).1]
    funext n
    have h1 := oneByOne_spec demoTools demoFs demo_reads demo_apart [true, false] (by decide)
    have h2 := oneByOne_spec demoTools demoFs demo_reads demo_apart [false, true] (by decide)
    by_cases h : ∃ i, n ∈ (demoTools i).outputs demoFs
    · obtain ⟨i, hi⟩ := h
      rw [h1.2 i (by cases i <;> simp) n hi, h2.2 i (by cases i <;> simp) n hi]
    · have h : ∀ i, n ∉ (demoTools i).outputs demoFs := fun i hi => h ⟨i, hi⟩
      rw [h1.1 n fun i _ => h i, h2.1 n fun i _ => h i]

/-- `tef-interp a.txt` -/
def demoInterp : InterpOptions := ⟨"a.txt".toList, [], "interp".toList, true, "linear".toList, "0.0".toList, 3, []⟩
def demoInterpTool : Tool (Except PyErr Unit) :=
  interpTool readFixed (fun l => List.range l.length) (fun _ _ _ _ x2 => .ok x2) [] demoInterp
def demoInterpFs : Files := fun n => if n = "a.txt".toList then some "1.0 2.0\n3.0 4.0\n".toList else none

/-- (finding) `tef-interp` takes an existing output file for the sampling points.  A run that was killed when it had just opened its output leaves
an empty file, and the next run then finds no sampling points: it ends without an error and writes an empty table again. -/
example :
    ((System.init (fun _ : Unit => demoInterpTool) demoInterpFs).run (fun _ => demoInterpTool) [(), (), (), ()]).files "a_interp.txt".toList = some [] ∧
    (demoInterpTool.alone demoInterpFs).1 "a_interp.txt".toList = some "1.0000\n2.0000\n3.0000\n".toList ∧
    (demoInterpTool.alone (demoInterpFs.write "a_interp.txt".toList [])).1 "a_interp.txt".toList = some [] := by
  decide +kernel

end TEflow.SideBySide
