/-!
# Shared vocabulary: bytes, faults, effectful actions, little-endian integers

`Bytes` stands for Rust's `[u8]`/`Vec<u8>`.  Panics and `Err` values are explicit (`Fault`).
-/

namespace Verif

/-- A byte string (`&[u8]`, `Vec<u8>`). -/
abbrev Bytes := List UInt8

/-- Ways a Rust call can fail to return a value: a panic, a returned `Err`, or a recursion that does not
end (fuel exhausted, i.e. stack overflow in the real program). -/
inductive Fault where
  | panic (why : String)
  | err (why : String)
  | outOfFuel
  deriving DecidableEq, Repr

instance {ε α : Type} [DecidableEq ε] [DecidableEq α] : DecidableEq (Except ε α)
  | .ok a, .ok b => if h : a = b then isTrue (by rw [h]) else isFalse (by simpa using h)
  | .error a, .error b => if h : a = b then isTrue (by rw [h]) else isFalse (by simpa using h)
  | .ok _, .error _ => isFalse (by simp)
  | .error _, .ok _ => isFalse (by simp)

/-- A result is a panic. -/
def IsPanic {α : Type} : Except Fault α → Prop
  | .error (.panic _) => True
  | _ => False

/-- A result is a returned `Err`. -/
def IsErr {α : Type} : Except Fault α → Prop
  | .error (.err _) => True
  | _ => False

/-- A result is a normal return. -/
def IsOk {α : Type} : Except Fault α → Prop
  | .ok _ => True
  | _ => False

instance {α : Type} (r : Except Fault α) : Decidable (IsPanic r) := by
  unfold IsPanic; split <;> infer_instance
instance {α : Type} (r : Except Fault α) : Decidable (IsErr r) := by
  unfold IsErr; split <;> infer_instance
instance {α : Type} (r : Except Fault α) : Decidable (IsOk r) := by
  unfold IsOk; split <;> infer_instance

/-- An action on a mutable state `σ` that may fail; the state changes made before a failure stay
(as with a Rust panic that unwinds). -/
def Act (σ α : Type) := σ → Except Fault α × σ

namespace Act
variable {σ α β : Type}

def pure (a : α) : Act σ α := fun s => (.ok a, s)

def bind (x : Act σ α) (f : α → Act σ β) : Act σ β := fun s =>
  match x s with
  | (.ok a, s') => f a s'
  | (.error e, s') => (.error e, s')

instance : Monad (Act σ) where
  pure := Act.pure
  bind := Act.bind

def fail (e : Fault) : Act σ α := fun s => (.error e, s)
def get : Act σ σ := fun s => (.ok s, s)
def set (s : σ) : Act σ Unit := fun _ => (.ok (), s)
def modify (f : σ → σ) : Act σ Unit := fun s => (.ok (), f s)
/-- `assert!(p)` -/
def assert (p : Prop) [Decidable p] (why : String) : Act σ Unit := fun s =>
  if p then (.ok (), s) else (.error (.panic why), s)

@[simp] theorem pure_apply (a : α) (s : σ) : (Pure.pure a : Act σ α) s = (.ok a, s) := rfl
@[simp] theorem pure_apply' (a : α) (s : σ) : (Act.pure a : Act σ α) s = (.ok a, s) := rfl
@[simp] theorem fail_apply (e : Fault) (s : σ) : (Act.fail e : Act σ α) s = (.error e, s) := rfl
@[simp] theorem get_apply (s : σ) : (Act.get : Act σ σ) s = (.ok s, s) := rfl
@[simp] theorem set_apply (s t : σ) : (Act.set t : Act σ Unit) s = (.ok (), t) := rfl
@[simp] theorem modify_apply (f : σ → σ) (s : σ) : (Act.modify f : Act σ Unit) s = (.ok (), f s) := rfl

theorem bind_apply (x : Act σ α) (f : α → Act σ β) (s : σ) :
    (x >>= f) s = match x s with
      | (.ok a, s') => f a s'
      | (.error e, s') => (.error e, s') := rfl

theorem bind_ok {x : Act σ α} {f : α → Act σ β} {s s' : σ} {a : α} (h : x s = (.ok a, s')) :
    (x >>= f) s = f a s' := by rw [bind_apply, h]

theorem bind_error {x : Act σ α} {f : α → Act σ β} {s s' : σ} {e : Fault} (h : x s = (.error e, s')) :
    (x >>= f) s = (.error e, s') := by rw [bind_apply, h]

@[simp] theorem assert_apply (p : Prop) [Decidable p] (w : String) (s : σ) :
    (Act.assert p w : Act σ Unit) s = if p then (.ok (), s) else (.error (.panic w), s) := rfl

theorem assert_true {p : Prop} [Decidable p] {w : String} {s : σ} (h : p) :
    (Act.assert p w : Act σ Unit) s = (.ok (), s) := by simp [h]

end Act

/-! ## Little-endian integers -/

/-- The `n` low-order bytes of `x`, least significant first (`u32::to_le_bytes`, `u64::to_le_bytes`). -/
def leBytes : Nat → Nat → Bytes
  | 0, _ => []
  | n + 1, x => UInt8.ofNat (x % 256) :: leBytes n (x / 256)

/-- The number a little-endian byte string denotes (`u32::from_le_bytes`, ...). -/
def fromLe : Bytes → Nat
  | [] => 0
  | b :: bs => b.toNat + 256 * fromLe bs

@[simp] theorem leBytes_length (n x : Nat) : (leBytes n x).length = n := by
  induction n generalizing x with
  | zero => rfl
  | succ n ih => simp [leBytes, ih]

theorem fromLe_lt (b : Bytes) : fromLe b < 256 ^ b.length := by
  induction b with
  | nil => simp [fromLe]
  | cons a b ih =>
    have := a.toNat_lt
    simp only [fromLe, List.length_cons, Nat.pow_succ]
    omega

theorem fromLe_leBytes (n x : Nat) : fromLe (leBytes n x) = x % 256 ^ n := by
  induction n generalizing x with
  | zero => simp [leBytes, fromLe, Nat.mod_one]
  | succ n ih =>
    simp only [leBytes, fromLe, ih]
    have h1 : (UInt8.ofNat (x % 256)).toNat = x % 256 := by
      simp
    rw [h1, Nat.pow_succ, Nat.mul_comm (256 ^ n) 256, Nat.mod_mul]

theorem fromLe_leBytes_of_lt {n x : Nat} (h : x < 256 ^ n) : fromLe (leBytes n x) = x := by
  rw [fromLe_leBytes, Nat.mod_eq_of_lt h]

theorem leBytes_fromLe (b : Bytes) : leBytes b.length (fromLe b) = b := by
  induction b with
  | nil => rfl
  | cons a b ih =>
    have ha : a.toNat < 256 := a.toNat_lt
    simp only [fromLe, List.length_cons, leBytes]
    have h1 : (a.toNat + 256 * fromLe b) % 256 = a.toNat := by omega
    have h2 : (a.toNat + 256 * fromLe b) / 256 = fromLe b := by omega
    rw [h1, h2, ih]
    simp

theorem leBytes_inj {n x y : Nat} (hx : x < 256 ^ n) (hy : y < 256 ^ n)
    (h : leBytes n x = leBytes n y) : x = y := by
  rw [← fromLe_leBytes_of_lt hx, h, fromLe_leBytes_of_lt hy]

end Verif
