import Verif.Model.Band

/-! # `MultiBands` objects inside `MultiBands` objects, /repo/src/teflow/bandlib.py:427-641

`MultiBands` is a subclass of `BaseBand`, so that `append` (bandlib.py:486) takes a `MultiBands` object as a band.  Objects are trees here
(no sharing; `Verif.Model.Band` models sharing for flat objects) and not compiled.  The type given when an object is appended is stored in
its `_q_sign`; at the root it is 1 unless the object has been appended to another one. -/

namespace TEflow.Bandlib

section
variable {R : Type} [Field R] [LinearOrder R]

mutual
/-- a band or a `MultiBands` object with its `_q_sign` -/
inductive Node (R : Type) : Type where
  | band (b : Leaf R)
  | multi (sign : R) (parts : Parts R)
/-- the parts of a `MultiBands` object with their offsets -/
inductive Parts (R : Type) : Type where
  | nil
  | cons (b : Node R) (delta : R) (rest : Parts R)
end

/-- `_q_sign` -/
def Node.sign : Node R → R
  | .band b => b.sign
  | .multi s _ => s

mutual
/-- `_N`, bandlib.py:208-219, 557-564 (sums are written from the right) -/
def Node.n : Node R → R → R → R
  | .band b, EF, T => b.n EF T
  | .multi _ ps, EF, T => ps.n EF T
/-- the loop, bandlib.py:561-563 -/
def Parts.n : Parts R → R → R → R
  | .nil, _, _ => 0
  | .cons b d ps, EF, T => b.n (-1 * b.sign * (EF - d)) T + ps.n EF T
end

mutual
/-- `_K_n`, bandlib.py:221-223, 566-574 -/
def Node.k (i : Nat) : Node R → R → R → R
  | .band b, EF, T => b.k i EF T
  | .multi _ ps, EF, T => ps.k i EF T
/-- the loop, bandlib.py:570-573 -/
def Parts.k (i : Nat) : Parts R → R → R → R
  | .nil, _, _ => 0
  | .cons b d ps, EF, T => b.sign ^ i * b.k i (-1 * b.sign * (EF - d)) T + ps.k i EF T
end

mutual
/-- `_CCRH`, bandlib.py:225-228, 576-583, 1267-1269 -/
def Node.h : Node R → R → R → Except PyErr (Option R)
  | .band b, EF, T => .ok (b.ccrh EF T)
  | .multi _ ps, EF, T => (ps.h EF T).map some
/-- the loop, bandlib.py:580-582: `None` of a `LinearBand` cannot be added -/
def Parts.h : Parts R → R → R → Except PyErr R
  | .nil, _, _ => .ok 0
  | .cons b d ps, EF, T => do
    let x ← needNum (b.h (-1 * b.sign * (EF - d)) T)
    let y ← ps.h EF T
    return x + y
end

/-- what the property methods read -/
def Node.src (b : Node R) (EF T : R) : Src R := ⟨b.sign, .ok (b.n EF T), fun i => .ok (b.k i EF T), b.h EF T, .ok T⟩

/-- `band.X(EF, T)` -/
def Node.prop (b : Node R) (p : TProp) (EF T : R) : Except PyErr (Option R) := (b.src EF T).prop p

/-- `MultiBands.append(band, delta, btype)` on the object appended: its sign becomes that of the type, bandlib.py:495-500 -/
def Node.withSign (s : R) : Node R → Node R
  | .band b => .band { b with sign := s }
  | .multi _ ps => .multi s ps

/-- at the end of the list, bandlib.py:502-503 -/
def Parts.snoc : Parts R → Node R → R → Parts R
  | .nil, b, d => .cons b d .nil
  | .cons a e ps, b, d => .cons a e (ps.snoc b d)

/-- `multi.append(band, delta, btype)`, bandlib.py:467-503: the object appended to and the band afterwards (on a single band there is no
such method) -/
def Node.append (m b : Node R) (d : R) (btype : List Char) : Except PyErr (Node R × Node R) :=
  match m with
  | .band _ => .error .attributeError
  | .multi s ps =>
    match signOfType btype with
    | .error e => .error e
    | .ok q => .ok (.multi s (ps.snoc (b.withSign q) d), b.withSign q)

end

end TEflow.Bandlib
