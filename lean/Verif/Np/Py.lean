import Mathlib.Tactic.TypeStar
/-
Python-level notions: exceptions as values, and methods that mutate `self`.
-/
namespace Verif

/-- The Python exceptions that the modelled code can raise. -/
inductive PyErr where
  | valueError      -- `ValueError` (explicit `raise`, and numpy shape errors)
  | typeError       -- `TypeError` (e.g. `- None`)
  | indexError      -- `IndexError`
  | keyError        -- `KeyError`
  | nameError       -- `NameError`
  | linAlgError     -- `numpy.linalg.LinAlgError`
  | attributeError  -- `AttributeError`
  | assertionError  -- `AssertionError`
  | runtimeError    -- `RuntimeError` (exceptions of drake)
  deriving DecidableEq, Repr

/-- A Python computation without side effects: it returns or raises. -/
abbrev Py (α : Type) := Except PyErr α

/-- A Python method that may mutate an object of type `σ`: from the state of the object it
produces a result or an exception **and** the state left behind.  (In Python the mutations done
before an exception is raised are not undone.) -/
def PyM (σ α : Type) := σ → Py α × σ

namespace PyM
variable {σ α β : Type}

@[simp] def run (m : PyM σ α) (s : σ) : Py α × σ := m s

protected def pure (a : α) : PyM σ α := fun s => (.ok a, s)

protected def bind (m : PyM σ α) (f : α → PyM σ β) : PyM σ β := fun s =>
  match m s with
  | (.ok a, s') => f a s'
  | (.error e, s') => (.error e, s')

instance : Monad (PyM σ) where
  pure := PyM.pure
  bind := PyM.bind

/-- `raise` -/
def raise (e : PyErr) : PyM σ α := fun s => (.error e, s)

/-- read the object -/
def get : PyM σ σ := fun s => (.ok s, s)

/-- assign attributes of the object -/
def modify (f : σ → σ) : PyM σ Unit := fun s => (.ok (), f s)

/-- run a computation that does not touch the object -/
def lift (m : Py α) : PyM σ α := fun s => (m, s)

theorem pure_apply (a : α) (s : σ) : (pure a : PyM σ α) s = (.ok a, s) := rfl

theorem bind_apply (m : PyM σ α) (f : α → PyM σ β) (s : σ) :
    (m >>= f) s = match m s with
      | (.ok a, s') => f a s'
      | (.error e, s') => (.error e, s') := rfl

theorem bind_ok {m : PyM σ α} {f : α → PyM σ β} {s s' : σ} {a : α} (h : m s = (.ok a, s')) :
    (m >>= f) s = f a s' := by rw [bind_apply, h]

theorem bind_error {m : PyM σ α} {f : α → PyM σ β} {s s' : σ} {e : PyErr}
    (h : m s = (.error e, s')) : (m >>= f) s = (.error e, s') := by rw [bind_apply, h]

@[simp] theorem raise_apply (e : PyErr) (s : σ) : (raise e : PyM σ α) s = (.error e, s) := rfl
@[simp] theorem get_apply (s : σ) : (get : PyM σ σ) s = (.ok s, s) := rfl
@[simp] theorem modify_apply (f : σ → σ) (s : σ) : modify f s = (.ok (), f s) := rfl
@[simp] theorem lift_apply (m : Py α) (s : σ) : lift m s = (m, s) := rfl

end PyM

namespace Py
variable {α β : Type}

@[simp] theorem ok_bind (a : α) (f : α → Py β) : ((Except.ok a : Py α) >>= f) = f a := rfl
@[simp] theorem error_bind (e : PyErr) (f : α → Py β) :
    ((Except.error e : Py α) >>= f) = .error e := rfl

theorem bind_eq_ok {m : Py α} {f : α → Py β} {b : β} (h : (m >>= f) = .ok b) :
    ∃ a, m = .ok a ∧ f a = .ok b := by
  cases m with
  | error e => simp at h
  | ok a => exact ⟨a, rfl, h⟩

end Py
end Verif
