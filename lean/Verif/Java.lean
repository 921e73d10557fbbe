/-!
# A small model of the Java features the library uses

No definition in this file models a particular method of `/repo`; it fixes the meaning of Java
`int` arithmetic, arrays, exceptions and mutable object state used by every model file.
-/
namespace Verif

/-- The exceptions that the modelled code can throw.  `diverge` marks a loop that never ends
(or, in fuel-driven loops, fuel exhaustion, which the theorems exclude). -/
inductive Err
  | indexOutOfBounds      -- java.lang.ArrayIndexOutOfBoundsException
  | negativeArraySize     -- java.lang.NegativeArraySizeException
  | noSuchElement         -- java.util.NoSuchElementException
  | illegalArgument       -- java.lang.IllegalArgumentException
  | illegalState          -- java.lang.IllegalStateException
  | concurrentModification -- java.util.ConcurrentModificationException
  | nullPointer           -- java.lang.NullPointerException
  | unsupported           -- java.lang.UnsupportedOperationException
  | runtime               -- plain java.lang.RuntimeException
  | resize                -- com.bytefacets...ResizeException
  | invalidEntry          -- com.bytefacets...InvalidEntryException
  | rangeCheck            -- com.bytefacets...RangeCheckException
  | keyNotFound           -- com.bytefacets...KeyNotFoundException
  | initialization        -- com.bytefacets...InitializationException
  | dateTime              -- java.time.DateTimeException
  | classCast             -- java.lang.ClassCastException
  | numberFormat          -- java.lang.NumberFormatException (a subclass of IllegalArgumentException)
  | diverge
  deriving DecidableEq, Repr

/-- Outcome of a method call on an object with state `σ`: a returned value or an exception,
together with the state the object is left in. -/
inductive Res (σ α : Type) where
  | ok (a : α) (s : σ)
  | err (e : Err) (s : σ)

namespace Res
/-- The object state after the call, whether it returned or threw. -/
def state : Res σ α → σ
  | ok _ s => s
  | err _ s => s

@[simp] theorem state_ok (a : α) (s : σ) : (Res.ok a s).state = s := rfl
@[simp] theorem state_err (e : Err) (s : σ) : (Res.err e s : Res σ α).state = s := rfl

/-- What the caller sees: the value, or the exception. -/
def out : Res σ α → Except Err α
  | ok a _ => .ok a
  | err e _ => .error e

@[simp] theorem out_ok (a : α) (s : σ) : (Res.ok a s).out = .ok a := rfl
@[simp] theorem out_err (e : Err) (s : σ) : (Res.err e s : Res σ α).out = .error e := rfl
end Res

/-- A Java method body acting on an object of state `σ`. -/
structure JM (σ α : Type) where
  run : σ → Res σ α

namespace JM
variable {σ α β : Type}

instance : CoeFun (JM σ α) (fun _ => σ → Res σ α) := ⟨JM.run⟩

def pure (a : α) : JM σ α := ⟨fun s => .ok a s⟩

def bind (m : JM σ α) (f : α → JM σ β) : JM σ β := ⟨fun s =>
  match m s with
  | .ok a s' => f a s'
  | .err e s' => .err e s'⟩

instance : Monad (JM σ) where
  pure := JM.pure
  bind := JM.bind

instance : MonadStateOf σ (JM σ) where
  get := ⟨fun s => .ok s s⟩
  set s' := ⟨fun _ => .ok () s'⟩
  modifyGet f := ⟨fun s => let (a, s') := f s; .ok a s'⟩

/-- `throw new E(..)`. -/
def throw (e : Err) : JM σ α := ⟨fun s => .err e s⟩

/-- `if (c) { m }` followed by more statements. -/
def when (c : Prop) [Decidable c] (m : JM σ Unit) : JM σ Unit := if c then m else Pure.pure ()

theorem when_pos {c : Prop} [Decidable c] (h : c) (m : JM σ Unit) : JM.when c m = m := if_pos h
theorem when_neg {c : Prop} [Decidable c] (h : ¬c) (m : JM σ Unit) :
    JM.when c m = Pure.pure () := if_neg h

@[simp] theorem pure_apply (a : α) (s : σ) : (Pure.pure a : JM σ α) s = .ok a s := rfl
theorem bind_apply (m : JM σ α) (f : α → JM σ β) (s : σ) :
    (m >>= f) s = match m s with
      | .ok a s' => f a s'
      | .err e s' => .err e s' := rfl
theorem bind_ok {m : JM σ α} {f : α → JM σ β} {s s' : σ} {a : α} (h : m s = .ok a s') :
    (m >>= f) s = f a s' := by rw [bind_apply, h]
theorem bind_err {m : JM σ α} {f : α → JM σ β} {s s' : σ} {e : Err} (h : m s = .err e s') :
    (m >>= f) s = .err e s' := by rw [bind_apply, h]
@[simp] theorem get_apply (s : σ) : (MonadState.get : JM σ σ) s = .ok s s := rfl
@[simp] theorem set_apply (s s' : σ) : (MonadStateOf.set s' : JM σ PUnit) s = .ok () s' := rfl
@[simp] theorem modify_apply (f : σ → σ) (s : σ) : (_root_.modify f : JM σ PUnit) s = .ok () (f s) := rfl
@[simp] theorem throw_apply (e : Err) (s : σ) : (throw e : JM σ α) s = .err e s := rfl
@[simp] theorem map_apply (f : α → β) (m : JM σ α) (s : σ) :
    (f <$> m) s = match m s with
      | .ok a s' => .ok (f a) s'
      | .err e s' => .err e s' := rfl
end JM

/-- Every exception `m` can throw satisfies `P`. -/
def JM.ErrIn {σ α : Type} (P : Err → Prop) (m : JM σ α) : Prop :=
  ∀ s e s', m s = .err e s' → P e

namespace JM.ErrIn
variable {σ α β : Type} {P : Err → Prop}
theorem pure (a : α) : ErrIn P (Pure.pure a : JM σ α) := by
  intro s e s' h; simp at h
theorem get : ErrIn P (MonadState.get : JM σ σ) := by
  intro s e s' h; simp at h
theorem modify (f : σ → σ) : ErrIn P (_root_.modify f : JM σ PUnit) := by
  intro s e s' h; simp at h
theorem throw {x : Err} (hx : P x) : ErrIn P (JM.throw x : JM σ α) := by
  intro s e s' h; simp at h; rw [← h.1]; exact hx
theorem bind {m : JM σ α} {f : α → JM σ β} (h1 : ErrIn P m) (h2 : ∀ a, ErrIn P (f a)) :
    ErrIn P (m >>= f) := by
  intro s e s' h
  rw [JM.bind_apply] at h
  split at h
  · exact h2 _ _ _ _ h
  · rename_i heq
    simp at h
    rw [← h.1]; exact h1 _ _ _ heq
theorem ite {c : Prop} [Decidable c] {m n : JM σ α} (h1 : c → ErrIn P m) (h2 : ¬c → ErrIn P n) :
    ErrIn P (if c then m else n) := by
  split
  · exact h1 (by assumption)
  · exact h2 (by assumption)
theorem when {c : Prop} [Decidable c] {m : JM σ Unit} (h : ErrIn P m) : ErrIn P (JM.when c m) :=
  ite (fun _ => h) (fun _ => pure ())
end JM.ErrIn

/-- The value of a 32-bit two's complement `int` holding the mathematical result `x`. -/
def i32 (x : Int) : Int := (x + 2147483648) % 4294967296 - 2147483648

theorem i32_of_range {x : Int} (h : -2147483648 ≤ x ∧ x < 2147483648) : i32 x = x := by
  unfold i32; omega

theorem i32_range (x : Int) : -2147483648 ≤ i32 x ∧ i32 x < 2147483648 := by
  unfold i32; omega

/-- `Integer.MAX_VALUE` -/
def MAX_INT : Int := 2147483647

/-- A Java array: a length and its contents.  Contents at positions outside `[0, len)` are
meaningless and never read (see `rd`). -/
structure Arr (α : Type) where
  len : Nat
  get : Int → α

namespace Arr
variable {α : Type}

/-- `new T[n]` with every cell holding `d` (for a non-negative length). -/
def create (n : Int) (d : α) : Arr α := ⟨n.toNat, fun _ => d⟩

/-- `a[i] = v` for an in-range `i`. -/
def set (a : Arr α) (i : Int) (v : α) : Arr α := ⟨a.len, fun j => if j = i then v else a.get j⟩

/-- `Arrays.copyOf(a, n)` / `KeyArray.copyOf(a, n, d)`: the first cells are copied, the others
hold `d`. -/
def copyOf (a : Arr α) (n : Int) (d : α) : Arr α :=
  ⟨n.toNat, fun j => if j < a.len then a.get j else d⟩

/-- `fill(a, v, from, n)` for an in-range section. -/
def fillRange (a : Arr α) (v : α) (start n : Int) : Arr α :=
  ⟨a.len, fun j => if start ≤ j ∧ j < start + n then v else a.get j⟩

/-- The effect of `System.arraycopy(src, sp, dst, dp, n)` on `dst`, for in-range sections. -/
def copyRange (src : Arr α) (sp : Int) (dst : Arr α) (dp n : Int) : Arr α :=
  ⟨dst.len, fun j => if dp ≤ j ∧ j < dp + n then src.get (sp + (j - dp)) else dst.get j⟩

/-- The array's contents as a list (used in statements only). -/
def toList (a : Arr α) : List α := (List.range a.len).map fun (i : Nat) => a.get (i : Int)

@[simp] theorem len_create (n : Int) (d : α) : (create n d).len = n.toNat := rfl
@[simp] theorem get_create (n i : Int) (d : α) : (create n d).get i = d := rfl
@[simp] theorem len_set (a : Arr α) (i : Int) (v : α) : (a.set i v).len = a.len := rfl
theorem get_set (a : Arr α) (i j : Int) (v : α) :
    (a.set i v).get j = if j = i then v else a.get j := rfl
@[simp] theorem get_set_self (a : Arr α) (i : Int) (v : α) : (a.set i v).get i = v := by
  simp [set]
theorem get_set_ne (a : Arr α) {i j : Int} (v : α) (h : j ≠ i) : (a.set i v).get j = a.get j := by
  simp [set, h]
@[simp] theorem len_copyOf (a : Arr α) (n : Int) (d : α) : (a.copyOf n d).len = n.toNat := rfl
theorem get_copyOf (a : Arr α) (n j : Int) (d : α) :
    (a.copyOf n d).get j = if j < a.len then a.get j else d := rfl
@[simp] theorem len_fillRange (a : Arr α) (v : α) (s n : Int) :
    (a.fillRange v s n).len = a.len := rfl
theorem get_fillRange (a : Arr α) (v : α) (s n j : Int) :
    (a.fillRange v s n).get j = if s ≤ j ∧ j < s + n then v else a.get j := rfl
@[simp] theorem len_copyRange (a b : Arr α) (sp dp n : Int) :
    (copyRange a sp b dp n).len = b.len := rfl
theorem get_copyRange (a b : Arr α) (sp dp n j : Int) :
    (copyRange a sp b dp n).get j =
      if dp ≤ j ∧ j < dp + n then a.get (sp + (j - dp)) else b.get j := rfl
end Arr

section access
variable {σ α : Type}

/-- Array read `a[i]` with Java's bounds check. -/
def rdA (a : Arr α) (i : Int) : JM σ α := ⟨fun s =>
  if 0 ≤ i ∧ i < a.len then .ok (a.get i) s else .err .indexOutOfBounds s⟩

/-- Read of an array field of the object: `this.arr[i]`. -/
def rd (arr : σ → Arr α) (i : Int) : JM σ α := ⟨fun s =>
  if 0 ≤ i ∧ i < (arr s).len then .ok ((arr s).get i) s else .err .indexOutOfBounds s⟩

/-- Write to an array field of the object: `this.arr[i] = v`. -/
def wr (arr : σ → Arr α) (put : σ → Arr α → σ) (i : Int) (v : α) : JM σ Unit := ⟨fun s =>
  if 0 ≤ i ∧ i < (arr s).len then .ok () (put s ((arr s).set i v)) else .err .indexOutOfBounds s⟩

/-- `new T[n]`. -/
def newArr (n : Int) (d : α) : JM σ (Arr α) := ⟨fun s =>
  if 0 ≤ n then .ok (Arr.create n d) s else .err .negativeArraySize s⟩

/-- `System.arraycopy`. The JDK checks the bounds before copying anything. -/
def arraycopy (src : Arr α) (sp : Int) (dst : Arr α) (dp n : Int) : JM σ (Arr α) := ⟨fun s =>
  if 0 ≤ sp ∧ 0 ≤ dp ∧ 0 ≤ n ∧ sp + n ≤ src.len ∧ dp + n ≤ dst.len then
    .ok (Arr.copyRange src sp dst dp n) s
  else .err .indexOutOfBounds s⟩

theorem rdA_ok (a : Arr α) {i : Int} {s : σ} (h : 0 ≤ i ∧ i < a.len) :
    (rdA a i : JM σ α) s = .ok (a.get i) s := by simp [rdA, h]
theorem rd_ok (arr : σ → Arr α) {i : Int} {s : σ} (h : 0 ≤ i ∧ i < (arr s).len) :
    rd arr i s = .ok ((arr s).get i) s := by simp [rd, h]
theorem wr_ok (arr : σ → Arr α) (put : σ → Arr α → σ) {i : Int} {v : α} {s : σ}
    (h : 0 ≤ i ∧ i < (arr s).len) :
    wr arr put i v s = .ok () (put s ((arr s).set i v)) := by simp [wr, h]
theorem newArr_ok {n : Int} (d : α) {s : σ} (h : 0 ≤ n) :
    (newArr n d : JM σ (Arr α)) s = .ok (Arr.create n d) s := by simp [newArr, h]
theorem arraycopy_ok {src dst : Arr α} {sp dp n : Int} {s : σ}
    (h : 0 ≤ sp ∧ 0 ≤ dp ∧ 0 ≤ n ∧ sp + n ≤ src.len ∧ dp + n ≤ dst.len) :
    (arraycopy src sp dst dp n : JM σ (Arr α)) s = .ok (Arr.copyRange src sp dst dp n) s := by
  simp [arraycopy, h]
theorem ErrIn_rdA {P : Err → Prop} (h : P .indexOutOfBounds) (a : Arr α) (i : Int) :
    JM.ErrIn P (rdA a i : JM σ α) := by
  intro s e s' hh; unfold rdA at hh; simp only at hh; split at hh <;> simp at hh
  rw [← hh.1]; exact h
theorem ErrIn_rd {P : Err → Prop} (h : P .indexOutOfBounds) (arr : σ → Arr α) (i : Int) :
    JM.ErrIn P (rd arr i) := by
  intro s e s' hh; unfold rd at hh; simp only at hh; split at hh <;> simp at hh
  rw [← hh.1]; exact h
theorem ErrIn_wr {P : Err → Prop} (h : P .indexOutOfBounds) (arr : σ → Arr α)
    (put : σ → Arr α → σ) (i : Int) (v : α) : JM.ErrIn P (wr arr put i v) := by
  intro s e s' hh; unfold wr at hh; simp only at hh; split at hh <;> simp at hh
  rw [← hh.1]; exact h
end access

end Verif
