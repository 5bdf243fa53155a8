import Verif.Model.DotAccess
import Verif.Model.Elements
import Verif.Lemmas.Dict

/-! # C134: dot access to dictionaries -/

namespace TEflow.DotAccess

open PyDict

variable {ν : Type}

/-! ## Specification -/

/-- the dictionary part of a history: what the same program does to a plain `dict` -/
def items : PyDict String ν → List (Op ν) → PyDict String ν
  | d, [] => d
  | d, .setItem k v :: ops => items (PyDict.set d k v) ops
  | d, .delItem k :: ops => items (PyDict.erase d k) ops
  | d, _ :: ops => items d ops

/-- the history never assigns or deletes `d.name` -/
def Undotted (name : String) (ops : List (Op ν)) : Prop := (∀ v, Op.setAttr name v ∉ ops) ∧ Op.delAttr name ∉ ops

/-- the name is not one of the class -/
def Free (c : Cls) (name : String) : Prop := name ∉ c.props ∧ name ∉ c.methods

/-- a new object with these entries -/
def fresh (d : PyDict String ν) : Obj ν := ⟨d, []⟩

/-! ## Histories -/

theorem run_entries (c : Cls) (ops : List (Op ν)) : ∀ d : Obj ν, (run c d ops).entries = items d.entries ops := by
  induction ops with
  | nil => intro d; rfl
  | cons op ops ih =>
    intro d
    rw [run, List.foldl_cons]
    rw [show List.foldl (step c) (step c d op) ops = run c (step c d op) ops from rfl, ih]
    cases op with
    | setItem k v => rfl
    | delItem k => rfl
    | setAttr n v => simp only [step]; split <;> rfl
    | delAttr n => simp only [step]; split <;> rfl

theorem get?_erase_ne (d : PyDict String ν) {k k' : String} (h : k ≠ k') : get? (erase d k) k' = get? d k' := by
  induction d with
  | nil => rfl
  | cons p d ih =>
    obtain ⟨a, v⟩ := p
    simp only [erase]
    split
    · rename_i e; subst e; simp [get?, h]
    · simp only [get?, ih]

theorem run_slot (c : Cls) (name : String) (ops : List (Op ν)) :
    ∀ d : Obj ν, Undotted name ops → get? (run c d ops).slots name = get? d.slots name := by
  induction ops with
  | nil => intro d _; rfl
  | cons op ops ih =>
    intro d hu
    have hu' : Undotted name ops := ⟨fun v h => hu.1 v (List.mem_cons_of_mem _ h), fun h => hu.2 (List.mem_cons_of_mem _ h)⟩
    rw [run, List.foldl_cons]
    rw [show List.foldl (step c) (step c d op) ops = run c (step c d op) ops from rfl, ih _ hu']
    cases op with
    | setItem k v => rfl
    | delItem k => rfl
    | setAttr n v =>
      have hn : n ≠ name := by rintro rfl; exact hu.1 v (by simp)
      simp only [step]
      split
      · rfl
      · simp only [get?_set, if_neg hn]
    | delAttr n =>
      have hn : n ≠ name := by rintro rfl; exact hu.2 (by simp)
      simp only [step]
      split
      · rfl
      · exact get?_erase_ne _ hn

/-- **C134** Reading with a dot is reading the item: after any history in which `d.name` was not assigned, for a name that the class does not
use, `d.name` is `d['name']`, the same value or the same `KeyError`. -/
theorem C134_reads (c : Cls) (d : PyDict String ν) (ops : List (Op ν)) (name : String) (hf : Free c name) (hu : Undotted name ops) :
    getAttr c (run c (fresh d) ops) name =
      match get? (items d ops) name with
      | some v => .ok (.value v)
      | none => .error .keyError := by
  have h1 := run_slot c name ops (fresh d) hu
  have h2 := run_entries c ops (fresh d)
  simp only [fresh, get?] at h1 h2
  simp only [getAttr, if_neg hf.1, fresh, h1, if_neg hf.2, dunderGetattr, getItem, h2]
  cases get? (items d ops) name <;> rfl

/-- **C134** Assignments with a dot never change the dictionary: after any history the entries are those that the item operations alone give. -/
theorem C134_entries (c : Cls) (d : Obj ν) (ops : List (Op ν)) : (run c d ops).entries = items d.entries ops := run_entries c ops d

/-- **C134** (why assigning with a dot is not supported) After `d.name = v` every later `d.name` is `v`, whatever is stored under `d['name']`
then or later. -/
theorem C134_shadows (c : Cls) (d : Obj ν) (before after : List (Op ν)) (name : String) (v : ν) (hp : name ∉ c.props) (hu : Undotted name after) :
    getAttr c (run c d (before ++ .setAttr name v :: after)) name = .ok (.value v) := by
  have h1 : run c d (before ++ .setAttr name v :: after) = run c (step c (run c d before) (.setAttr name v)) after := by
    simp only [run, List.foldl_append, List.foldl_cons]
  have h2 := run_slot c name after (step c (run c d before) (.setAttr name v)) hu
  have h3 : get? (step c (run c d before) (.setAttr name v)).slots name = some v := by
    simp only [step, if_neg hp, get?_set, if_true]
  rw [h1]
  simp only [getAttr, if_neg hp, h2, h3]

/-- **C134** A name of the class hides the item: `d.items` is the method and `d.natom` the property even if there is such a key. -/
theorem C134_hidden (c : Cls) (d : PyDict String ν) (ops : List (Op ν)) (name : String) (hn : name ∈ c.props ∨ (name ∈ c.methods ∧ Undotted name ops)) :
    ∃ r, getAttr c (run c (fresh d) ops) name = .ok r ∧ ∀ v, r ≠ .value v := by
  refine ⟨.ofClass, ?_, by intro v; simp⟩
  rcases hn with hp | ⟨hm, hu⟩
  · simp only [getAttr, if_pos hp]
  · by_cases hp : name ∈ c.props
    · simp only [getAttr, if_pos hp]
    · have h1 := run_slot c name ops (fresh d) hu
      simp only [fresh, get?] at h1
      simp only [getAttr, if_neg hp, fresh, h1, if_pos hm]

/-- **C134** (finding) A missing attribute is a `KeyError`, so `hasattr` never answers "no" and `copy.deepcopy`, which asks every object for
`__deepcopy__`, fails on every such dictionary. -/
theorem C134_hasattr (c : Cls) (d : PyDict String ν) (ops : List (Op ν)) (name : String) :
    hasAttr c (run c (fresh d) ops) name ≠ .ok false ∧
    (Free c name → Undotted name ops → name ∉ keys (items d ops) → hasAttr c (run c (fresh d) ops) name = .error .keyError) := by
  constructor
  · unfold hasAttr getAttr dunderGetattr getItem
    by_cases hp : name ∈ c.props
    · simp [hp]
    · by_cases hm : name ∈ c.methods
      · cases get? (run c (fresh d) ops).slots name <;> simp [hp, hm]
      · cases get? (run c (fresh d) ops).slots name <;> cases get? (run c (fresh d) ops).entries name <;> simp [hp, hm]
  · intro hf hu hk
    have := C134_reads c d ops name hf hu
    rw [(get?_eq_none _ _).2 hk] at this
    rw [hasAttr, this]

/-! ## Compositions -/

/-- does the name begin with a capital letter? -/
def capital (s : String) : Bool := match s.toList with
  | c :: _ => decide ('A' ≤ c ∧ c ≤ 'Z')
  | [] => false

/-- **C134** For compounds and alloys dot access works for every element of the periodic table and for every automatic site name (and every other
name with a capital): none of them is a name of the class. -/
theorem C134_elements (name : String) (h : capital name = true) : Free compoundCls name ∧ Free alloyCls name := by
  have key : ∀ c ∈ [compoundCls, alloyCls], ∀ n ∈ c.props ++ c.methods, capital n = false := by decide +kernel
  have free : ∀ c ∈ [compoundCls, alloyCls], Free c name := by
    intro c hc
    refine ⟨fun hm => ?_, fun hm => ?_⟩
    · have := key c hc name (List.mem_append_left _ hm); rw [h] at this; cases this
    · have := key c hc name (List.mem_append_right _ hm); rw [h] at this; cases this
  exact ⟨free _ (by simp), free _ (by simp)⟩

/-- the names of the periodic table begin with capitals -/
theorem C134_table : ∀ p ∈ Loader.atomicWeight, capital p.1 = true := by decide +kernel

/-- **C134** The computed properties of a compound cannot be hidden: whatever is done to it, the names `natom`, `weights` and `weight_ave` give what the class
computes; an alloy has no such names. -/
theorem C134_computed (d : PyDict String ν) (ops : List (Op ν)) :
    (∀ name ∈ ["natom", "weights", "weight_ave"], getAttr compoundCls (run compoundCls (fresh d) ops) name = .ok .ofClass) ∧
    (∀ name ∈ ["natom", "weights", "weight_ave"], Free alloyCls name) := by
  refine ⟨fun name hn => ?_, by unfold Free; decide +kernel⟩
  have : name ∈ compoundCls.props := hn
  simp [getAttr, this]

/-- **C134** The methods of a compound and of an alloy are there under their names, whatever keys the dictionary has, as long as nobody assigns to the
name with a dot. -/
theorem C134_methods (d : PyDict String ν) (ops : List (Op ν)) (name : String) (hu : Undotted name ops) :
    (name ∈ ["replace", "to_string", "from_string", "retain", "get", "items", "keys", "values", "update", "pop", "copy", "clear", "move_to_end", "popitem", "setdefault", "fromkeys"] →
      getAttr compoundCls (run compoundCls (fresh d) ops) name = .ok .ofClass) ∧
    (name ∈ ["all_sites", "to_string", "from_string", "from_compounds", "retain", "get", "items", "keys", "values", "update", "pop", "copy", "clear", "move_to_end", "popitem", "setdefault", "fromkeys"] →
      getAttr alloyCls (run alloyCls (fresh d) ops) name = .ok .ofClass) := by
  have gen : ∀ c : Cls, name ∈ c.methods → getAttr c (run c (fresh d) ops) name = .ok .ofClass := by
    intro c hm
    by_cases hp : name ∈ c.props
    · simp only [getAttr, if_pos hp]
    · have h1 := run_slot c name ops (fresh d) hu
      simp only [fresh, get?] at h1
      simp only [getAttr, if_neg hp, fresh, h1, if_pos hm]
  constructor
  · intro hn
    refine gen _ ?_
    have : ∀ n ∈ ["replace", "to_string", "from_string", "retain", "get", "items", "keys", "values", "update", "pop", "copy", "clear", "move_to_end", "popitem", "setdefault", "fromkeys"],
        n ∈ compoundCls.methods := by decide +kernel
    exact this _ hn
  · intro hn
    refine gen _ ?_
    have : ∀ n ∈ ["all_sites", "to_string", "from_string", "from_compounds", "retain", "get", "items", "keys", "values", "update", "pop", "copy", "clear", "move_to_end", "popitem", "setdefault", "fromkeys"],
        n ∈ alloyCls.methods := by decide +kernel
    exact this _ hn

/-- `Bi2Te3`: `d.Te` is 3; after `d.Te = 5` it is 5 and the composition is the same -/
example : getAttr compoundCls (run compoundCls (fresh [("Bi", 2), ("Te", 1)]) [.setItem "Te" 3]) "Te" = .ok (.value 3) :=
  C134_reads compoundCls [("Bi", 2), ("Te", 1)] [.setItem "Te" 3] "Te" (C134_elements "Te" (by decide +kernel)).1 (by simp [Undotted])
example : (run compoundCls (fresh [("Bi", 2), ("Te", 3)]) [.setAttr "Te" 5]).entries = [("Bi", 2), ("Te", 3)] := C134_entries _ _ _

end TEflow.DotAccess
