import Mathlib.Data.List.Basic
import Mathlib.Tactic.Linarith
import Verif.Model.Re

/-! # Lemmas about the regular expression model -/

set_option linter.unusedSimpArgs false

namespace TEflow

/-- advance a position by `k` characters -/
def Pos.adv (s : Pos) (k : Nat) : Pos := ⟨(s.rest.take k).reverse ++ s.before, s.rest.drop k⟩

/-- `[n, n-1, …, 0]` -/
def downTo : Nat → List Nat
  | 0 => [0]
  | n + 1 => (downTo n).map (· + 1) ++ [0]

theorem downTo_head (n : Nat) : downTo n = n :: (downTo n).tail := by
  induction n with
  | zero => rfl
  | succ n ih => rw [downTo, ih]; simp

theorem downTo_succ (n : Nat) : downTo (n + 1) = (n + 1) :: downTo n := by
  induction n with
  | zero => rfl
  | succ n ih =>
    conv_lhs => rw [downTo, ih]
    conv_rhs => rw [downTo]
    simp

theorem mem_downTo (n k : Nat) : k ∈ downTo n ↔ k ≤ n := by
  induction n generalizing k with
  | zero => simp [downTo]
  | succ n ih => rw [downTo_succ, List.mem_cons, ih]; omega

@[simp] theorem Pos.adv_zero (s : Pos) : s.adv 0 = s := by cases s; simp [Pos.adv]
@[simp] theorem Pos.adv_before_rest (s : Pos) (k : Nat) : (s.adv k).rest = s.rest.drop k := rfl
theorem Pos.adv_succ (b : List Char) (c : Char) (r : List Char) (k : Nat) :
    (⟨c :: b, r⟩ : Pos).adv k = (⟨b, c :: r⟩ : Pos).adv (k + 1) := by
  simp [Pos.adv]
theorem Pos.adv_adv (s : Pos) (j k : Nat) (h : j ≤ s.rest.length) : (s.adv j).adv k = s.adv (j + k) := by
  simp only [Pos.adv, List.drop_drop]
  congr 1
  rw [← List.append_assoc, ← List.reverse_append, List.take_add]

namespace Re

theorem run_cls_nil (p : Char → Bool) (b : List Char) : run (.cls p) ⟨b, []⟩ = [] := rfl
theorem run_cls_cons (p : Char → Bool) (b : List Char) (c : Char) (r : List Char) :
    run (.cls p) ⟨b, c :: r⟩ = if p c then [⟨c :: b, r⟩] else [] := rfl

theorem starN_cls (p : Char → Bool) (r : List Char) (b : List Char) (m : Nat) (hm : r.length ≤ m) :
    starN (run (.cls p)) m ⟨b, r⟩ = (downTo (r.takeWhile p).length).map (Pos.adv ⟨b, r⟩) := by
  induction r generalizing b m with
  | nil => cases m <;> simp [starN, run_cls_nil, downTo]
  | cons c r ih =>
    cases m with
    | zero => simp at hm
    | succ m =>
      rw [starN, run_cls_cons]
      by_cases h : p c
      · simp only [h, if_true, List.takeWhile_cons_of_pos, List.length_cons]
        have : ([⟨c :: b, r⟩] : List Pos).filter (fun t => decide (t.rest.length < r.length + 1)) = [⟨c :: b, r⟩] := by
          simp
        simp only [this, List.flatMap_cons, List.flatMap_nil, List.append_nil]
        rw [ih _ _ (by simpa using hm), downTo]
        simp [List.map_append, List.map_map, Function.comp_def, Pos.adv_succ]
      · simp [h, downTo, List.takeWhile_cons_of_neg]

/-- a greedy repetition of a character class takes all it can, and gives back one character at a time -/
theorem run_star_cls (p : Char → Bool) (s : Pos) :
    run (.star (.cls p)) s = (downTo (s.rest.takeWhile p).length).map s.adv := by
  cases s; exact starN_cls p _ _ _ (le_refl _)

theorem run_plus_cls (p : Char → Bool) (b : List Char) (c : Char) (r : List Char) :
    run (plus (.cls p)) ⟨b, c :: r⟩ =
      if p c then (downTo (r.takeWhile p).length).map (fun k => (⟨b, c :: r⟩ : Pos).adv (k + 1)) else [] := by
  simp only [plus, run]
  split
  · simp only [List.flatMap_cons, List.flatMap_nil, List.append_nil]
    have := run_star_cls p ⟨c :: b, r⟩
    simp only [run] at this
    rw [this]
    simp [Pos.adv_succ]
  · simp

theorem run_plus_cls_nil (p : Char → Bool) (b : List Char) : run (plus (.cls p)) ⟨b, []⟩ = [] := rfl

theorem matchAt_plus_cls (p : Char → Bool) (b : List Char) (c : Char) (r : List Char) :
    matchAt (plus (.cls p)) ⟨b, c :: r⟩ =
      if p c then some ((⟨b, c :: r⟩ : Pos).adv ((r.takeWhile p).length + 1)) else none := by
  rw [matchAt, run_plus_cls]
  split
  · rw [downTo_head]; simp
  · simp

/-- If at every position the match, when there is one, advances by a positive `len`, `split` proceeds as expected. -/
theorem splitGo_cons_some (r : Re) (n : Nat) (acc b : List Char) (c : Char) (cs : List Char) (k : Nat) (hk : 0 < k)
    (h : matchAt r ⟨b, c :: cs⟩ = some ((⟨b, c :: cs⟩ : Pos).adv k)) :
    splitGo r (n + 1) acc ⟨b, c :: cs⟩ = acc.reverse :: splitGo r n [] ((⟨b, c :: cs⟩ : Pos).adv k) := by
  simp only [splitGo, h]
  rw [if_pos]
  simp only [Pos.adv_before_rest, List.length_drop, List.length_cons]; omega

theorem splitGo_cons_none (r : Re) (n : Nat) (acc b : List Char) (c : Char) (cs : List Char)
    (h : matchAt r ⟨b, c :: cs⟩ = none) :
    splitGo r (n + 1) acc ⟨b, c :: cs⟩ = splitGo r n (c :: acc) ⟨c :: b, cs⟩ := by
  simp only [splitGo, h]

theorem splitGo_nil (r : Re) (n : Nat) (acc b : List Char) : splitGo r n acc ⟨b, []⟩ = [acc.reverse] := by
  cases n <;> rfl

end Re

section Tokens
variable {α : Type}

/-- Specification: `Tokenises sep text ts` – `ts` are the maximal non-empty runs of non-separators of `text`,
in order. -/
inductive Tokenises (sep : α → Bool) : List α → List (List α) → Prop
  | nil : Tokenises sep [] []
  | sep (c : α) (s : List α) (ts : List (List α)) (hc : sep c = true) (h : Tokenises sep s ts) :
      Tokenises sep (c :: s) ts
  | word (w s : List α) (ts : List (List α)) (hw : w ≠ []) (hn : ∀ c ∈ w, sep c = false)
      (hs : ∀ c ∈ s.head?, sep c = true) (h : Tokenises sep s ts) : Tokenises sep (w ++ s) (w :: ts)

/-- the pending token, if any -/
def flush (acc : List α) : List (List α) := if acc.isEmpty then [] else [acc.reverse]

/-- tokens by a scan with a pending (reversed) token -/
def toks (sep : α → Bool) : List α → List α → List (List α)
  | acc, [] => flush acc
  | acc, c :: r => if sep c then flush acc ++ toks sep [] r else toks sep (c :: acc) r

theorem toks_dropWhile (sep : α → Bool) (r : List α) : toks sep [] (r.dropWhile sep) = toks sep [] r := by
  induction r with
  | nil => rfl
  | cons c r ih =>
    by_cases h : sep c
    · rw [List.dropWhile_cons_of_pos h, ih]; simp [toks, h, flush]
    · rw [List.dropWhile_cons_of_neg h]

theorem toks_drop_prefix (sep : α → Bool) (r : List α) (k : Nat) (h : k ≤ (r.takeWhile sep).length) :
    toks sep [] (r.drop k) = toks sep [] r := by
  induction k generalizing r with
  | zero => simp
  | succ k ih =>
    cases r with
    | nil => simp
    | cons c r =>
      by_cases hc : sep c
      · rw [List.takeWhile_cons_of_pos hc] at h
        simp only [List.drop_succ_cons, toks, hc, if_true, flush, List.isEmpty_nil, List.nil_append]
        exact ih r (by simpa using h)
      · rw [List.takeWhile_cons_of_neg hc] at h; simp at h

theorem toks_word (sep : α → Bool) (w r acc : List α) (hn : ∀ c ∈ w, sep c = false) :
    toks sep acc (w ++ r) = toks sep (w.reverse ++ acc) r := by
  induction w generalizing acc with
  | nil => rfl
  | cons c w ih =>
    rw [List.cons_append, toks, hn c (by simp)]
    simp only [Bool.false_eq_true, if_false]
    rw [ih _ (fun d hd => hn d (by simp [hd]))]; simp

theorem toks_head_sep (sep : α → Bool) (acc r : List α) (hs : ∀ c ∈ r.head?, sep c = true) :
    toks sep acc r = flush acc ++ toks sep [] r := by
  cases r with
  | nil => simp [toks, flush]
  | cons c r => simp [toks, hs c (by simp), flush]

theorem Tokenises.eq_toks {sep : α → Bool} {s : List α} {ts : List (List α)} (h : Tokenises sep s ts) :
    toks sep [] s = ts := by
  induction h with
  | nil => rfl
  | sep c s ts hc _ ih => simp [toks, hc, flush, ih]
  | word w s ts hw hn hs _ ih =>
    rw [toks_word sep w s [] hn, toks_head_sep sep _ _ hs, ih, List.append_nil]
    simp [flush, hw]

theorem tokenises_toks_aux (sep : α → Bool) (r : List α) :
    ∀ acc : List α, (∀ c ∈ acc, sep c = false) → Tokenises sep (acc.reverse ++ r) (toks sep acc r) := by
  induction r with
  | nil =>
    intro acc ha
    by_cases h : acc = []
    · subst h; simpa [toks, flush] using Tokenises.nil
    · have := Tokenises.word (sep := sep) acc.reverse [] [] (by simpa using h) (by simpa using ha) (by simp) Tokenises.nil
      simpa [toks, flush, h] using this
  | cons c r ih =>
    intro acc ha
    by_cases hc : sep c
    · have h0 := ih [] (by simp)
      simp only [List.reverse_nil, List.nil_append] at h0
      have h1 := Tokenises.sep c r _ hc h0
      by_cases h : acc = []
      · subst h; simpa [toks, flush, hc] using h1
      · have := Tokenises.word (sep := sep) acc.reverse (c :: r) _ (by simpa using h) (by simpa using ha)
          (by simpa using hc) h1
        simpa [toks, flush, h, hc] using this
    · have := ih (c :: acc) (by
        intro d hd
        rcases List.mem_cons.1 hd with e | e
        · subst e; simpa using hc
        · exact ha d e)
      simpa [toks, hc] using this

/-- the scan computes the tokens -/
theorem tokenises_toks (sep : α → Bool) (r : List α) : Tokenises sep r (toks sep [] r) := by
  simpa using tokenises_toks_aux sep r [] (by simp)

theorem tokenises_iff (sep : α → Bool) (r : List α) (ts : List (List α)) :
    Tokenises sep r ts ↔ toks sep [] r = ts :=
  ⟨Tokenises.eq_toks, fun h => h ▸ tokenises_toks sep r⟩

end Tokens

namespace Re

theorem filter_append_flush (acc : List Char) (l : List (List Char)) :
    (acc.reverse :: l).filter (fun t => !t.isEmpty) = flush acc ++ l.filter (fun t => !t.isEmpty) := by
  cases acc with
  | nil => simp [flush]
  | cons c acc => rw [List.filter_cons_of_pos (by simp)]; simp [flush]

/-- splitting at `[class]+` and dropping empty pieces gives the tokens -/
theorem splitGo_plus_cls (p : Char → Bool) (n : Nat) (r acc b : List Char) (hn : r.length ≤ n) :
    (splitGo (plus (.cls p)) n acc ⟨b, r⟩).filter (fun t => !t.isEmpty) = toks p acc r := by
  induction n generalizing r acc b with
  | zero =>
    have : r = [] := by simpa using hn
    subst this
    have := filter_append_flush acc []
    simpa [splitGo, toks] using this
  | succ n ih =>
    cases r with
    | nil => rw [splitGo_nil]; have := filter_append_flush acc []; simpa [toks] using this
    | cons c r =>
      have hm := matchAt_plus_cls p b c r
      by_cases hc : p c
      · rw [if_pos hc] at hm
        rw [splitGo_cons_some _ _ _ _ _ _ _ (by omega) hm, filter_append_flush]
        rw [toks, if_pos hc]
        congr 1
        have hl : (r.drop (r.takeWhile p).length).length ≤ n := by
          simp only [List.length_drop]; simp at hn; omega
        have := ih (r.drop (r.takeWhile p).length) [] ((List.take ((r.takeWhile p).length + 1) (c :: r)).reverse ++ b) hl
        have e : (⟨b, c :: r⟩ : Pos).adv ((r.takeWhile p).length + 1) =
            ⟨(List.take ((r.takeWhile p).length + 1) (c :: r)).reverse ++ b, r.drop (r.takeWhile p).length⟩ := by
          simp [Pos.adv]
        rw [e, this, toks_drop_prefix p r _ (le_refl _)]
      · rw [if_neg hc] at hm
        rw [splitGo_cons_none _ _ _ _ _ _ hm, toks, if_neg hc]
        exact ih _ _ _ (by simpa using hn)

theorem split_plus_cls (p : Char → Bool) (text : List Char) :
    (split (plus (.cls p)) text).filter (fun t => !t.isEmpty) = toks p [] text :=
  splitGo_plus_cls p _ _ _ _ (le_refl _)

end Re
end TEflow

namespace TEflow.Re

/-! ### First successes -/

theorem head?_seq {a b : Re} {s t u : Pos} (h1 : (run a s).head? = some t) (h2 : (run b t).head? = some u) :
    (run (.seq a b) s).head? = some u := by
  rw [run]
  cases h : run a s with
  | nil => simp [h] at h1
  | cons x xs =>
    rw [h] at h1; simp only [List.head?_cons, Option.some.injEq] at h1; subst h1
    rw [List.flatMap_cons, List.head?_append, h2]; rfl

theorem head?_star_cls (p : Char → Bool) (s : Pos) :
    (run (.star (.cls p)) s).head? = some (s.adv (s.rest.takeWhile p).length) := by
  rw [run_star_cls, downTo_head]; rfl

theorem head?_cls (p : Char → Bool) (b : List Char) (c : Char) (r : List Char) (h : p c = true) :
    (run (.cls p) ⟨b, c :: r⟩).head? = some ((⟨b, c :: r⟩ : Pos).adv 1) := by
  simp [run, h, Pos.adv]

theorem head?_opt_cls (p : Char → Bool) (s : Pos) :
    (run (.opt (.cls p)) s).head? = some (if (s.rest.head?.map p) = some true then s.adv 1 else s) := by
  obtain ⟨b, r⟩ := s
  cases r with
  | nil => simp [opt, run]
  | cons c r => by_cases h : p c <;> simp [opt, run, h, Pos.adv]

theorem head?_runParts {r : Re} {rs : List Re} {s t : Pos} {ts : List Pos} (h1 : (run r s).head? = some t)
    (h2 : (runParts rs t).head? = some ts) : (runParts (r :: rs) s).head? = some (t :: ts) := by
  rw [runParts]
  cases h : run r s with
  | nil => simp [h] at h1
  | cons x xs =>
    rw [h] at h1; simp only [List.head?_cons, Option.some.injEq] at h1; subst h1
    rw [List.flatMap_cons, List.head?_append, List.head?_map, h2]; rfl

theorem between_adv (s : Pos) (j k : Nat) (hj : j ≤ s.rest.length) (hk : k ≤ s.rest.length - j) :
    between (s.adv j) (s.adv (j + k)) = (s.rest.drop j).take k := by
  unfold between
  simp only [Pos.adv_before_rest, List.length_drop]
  congr 1; omega

theorem between_adv_zero (s : Pos) (k : Nat) (hk : k ≤ s.rest.length) :
    between s (s.adv k) = s.rest.take k := by
  have := between_adv s 0 k (Nat.zero_le _) (by omega)
  simpa using this

theorem drop_takeWhile_len (p : Char → Bool) (r : List Char) : r.drop (r.takeWhile p).length = r.dropWhile p := by
  induction r with
  | nil => rfl
  | cons c r ih => by_cases h : p c <;> simp [List.takeWhile_cons, List.dropWhile_cons, h, ih]

theorem take_takeWhile_len (p : Char → Bool) (r : List Char) : r.take (r.takeWhile p).length = r.takeWhile p := by
  induction r with
  | nil => rfl
  | cons c r ih => by_cases h : p c <;> simp [List.takeWhile_cons, h, ih]

theorem takeWhile_len_le (p : Char → Bool) (r : List Char) : (r.takeWhile p).length ≤ r.length :=
  (List.takeWhile_sublist p).length_le

theorem mem_takeWhile {α : Type} {p : α → Bool} {l : List α} {x : α} (h : x ∈ l.takeWhile p) : p x = true := by
  induction l with
  | nil => simp at h
  | cons a l ih =>
    by_cases ha : p a
    · simp only [List.takeWhile_cons, ha, if_true, List.mem_cons] at h
      rcases h with h | h
      · rw [h]; exact ha
      · exact ih h
    · simp [List.takeWhile_cons, ha] at h

end TEflow.Re
