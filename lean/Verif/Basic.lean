/-!
# Outcomes of a C++ call

`Res α` is the outcome of executing a piece of the modelled C++ code:

* `ok a`    – the call returned `a`;
* `throw e` – a C++ exception of class `e` escaped (or a Fortran routine aborted through `XERBLA`);
* `ub`      – the execution has undefined behaviour (out-of-bounds access, null/dangling pointer, …).

Simplification: exceptions carry only their class, not their message.
-/

namespace EF

/-- Exception classes used in `/repo/src` (`std::out_of_range`, `std::invalid_argument`,
`std::runtime_error`, `std::bad_variant_access`), `badAlloc` for an allocation whose `size_t` size
wrapped around below zero, plus `xerbla` for the abort performed by the reference BLAS/LAPACK
argument checks. -/
inductive Exn
  | outOfRange
  | invalidArgument
  | runtimeError
  | badVariant
  | badAlloc
  | xerbla
  deriving DecidableEq, Repr

/-- Outcome of a modelled C++ call. -/
inductive Res (α : Type)
  | ok (a : α)
  | throw (e : Exn)
  | ub
  deriving DecidableEq, Repr

namespace Res

variable {α β γ : Type}

/-- Sequencing: exceptions and undefined behaviour end the computation. -/
def bind (x : Res α) (f : α → Res β) : Res β :=
  match x with
  | ok a => f a
  | throw e => throw e
  | ub => ub

instance : Monad Res where
  pure := ok
  bind := bind

@[simp] theorem pure_def (a : α) : (pure a : Res α) = ok a := rfl
@[simp] theorem ok_bind (a : α) (f : α → Res β) : (ok a >>= f) = f a := rfl
@[simp] theorem throw_bind (e : Exn) (f : α → Res β) : ((throw e : Res α) >>= f) = throw e := rfl
@[simp] theorem ub_bind (f : α → Res β) : ((ub : Res α) >>= f) = ub := rfl

@[simp] theorem ok_map (a : α) (f : α → β) : f <$> (ok a) = ok (f a) := rfl

instance : LawfulMonad Res := by
  refine LawfulMonad.mk' Res ?_ ?_ ?_
  · intro α x; cases x <;> rfl
  · intros; rfl
  · intro α β γ x f g; cases x <;> rfl

@[simp] theorem ok_inj {a b : α} : (ok a : Res α) = ok b ↔ a = b :=
  ⟨fun h => by cases h; rfl, fun h => by rw [h]⟩

theorem bind_eq_ok {x : Res α} {f : α → Res β} {b : β} :
    (x >>= f) = ok b ↔ ∃ a, x = ok a ∧ f a = ok b := by
  cases x with
  | ok a => simp
  | throw e => simp
  | ub => simp

end Res

/-- Read `data_[k]` of a `std::vector`: undefined behaviour outside the buffer. -/
def rd {α : Type} (l : List α) (k : Nat) : Res α :=
  match l[k]? with
  | some a => .ok a
  | none => .ub

/-- Write `data_[k] = v` of a `std::vector`: undefined behaviour outside the buffer. -/
def wr {α : Type} (l : List α) (k : Nat) (v : α) : Res (List α) :=
  if k < l.length then .ok (l.set k v) else .ub

/-- The C++ loop `for (i = 0; i < n; i++) s = body(i, s)`. -/
def forN {σ : Type} (n : Nat) (body : Nat → σ → Res σ) (s : σ) : Res σ :=
  match n with
  | 0 => .ok s
  | n + 1 => forN n body s >>= body n

/-- The C++ range loop `for (auto& x : l) s = body(x, s)`. -/
def forL {α σ : Type} (l : List α) (body : α → σ → Res σ) (s : σ) : Res σ :=
  match l with
  | [] => .ok s
  | x :: xs => body x s >>= forL xs body

@[simp] theorem forN_zero {σ : Type} (body : Nat → σ → Res σ) (s : σ) :
    forN 0 body s = .ok s := rfl

theorem forN_succ {σ : Type} (n : Nat) (body : Nat → σ → Res σ) (s : σ) :
    forN (n + 1) body s = (forN n body s >>= body n) := rfl

@[simp] theorem forL_nil {α σ : Type} (body : α → σ → Res σ) (s : σ) :
    forL [] body s = .ok s := rfl

@[simp] theorem forL_cons {α σ : Type} (x : α) (xs : List α) (body : α → σ → Res σ) (s : σ) :
    forL (x :: xs) body s = (body x s >>= forL xs body) := rfl

/-- Loop rule: a body that succeeds and advances an explicit state function. -/
theorem forN_ok {σ : Type} {n : Nat} {body : Nat → σ → Res σ} (st : Nat → σ)
    (h : ∀ i, i < n → body i (st i) = .ok (st (i + 1))) :
    forN n body (st 0) = .ok (st n) := by
  induction n with
  | zero => rfl
  | succ n ih =>
    rw [forN_succ, ih (fun i hi => h i (by omega)), Res.ok_bind, h n (by omega)]

theorem forN_congr {σ : Type} {n : Nat} {b₁ b₂ : Nat → σ → Res σ} {s : σ}
    (h : ∀ i, i < n → ∀ s, b₁ i s = b₂ i s) : forN n b₁ s = forN n b₂ s := by
  induction n with
  | zero => rfl
  | succ n ih =>
    rw [forN_succ, forN_succ, ih (fun i hi => h i (by omega))]
    congr 1; funext s; exact h n (by omega) s

theorem rd_eq_ok {α : Type} {l : List α} {k : Nat} (h : k < l.length) : rd l k = .ok l[k] := by
  simp [rd, h]

theorem rd_eq_ub {α : Type} {l : List α} {k : Nat} (h : l.length ≤ k) : rd l k = .ub := by
  simp [rd, h]

theorem wr_eq_ok {α : Type} {l : List α} {k : Nat} {v : α} (h : k < l.length) :
    wr l k v = .ok (l.set k v) := by simp [wr, h]

theorem wr_eq_ub {α : Type} {l : List α} {k : Nat} {v : α} (h : l.length ≤ k) :
    wr l k v = .ub := by simp [wr, Nat.not_lt.mpr h]

end EF
