import Verif.Base.History
import Verif.Model.Opaque

/-
Computations that leave a part of the state as it is.
-/

namespace Cmp

namespace M

variable {σ α β κ : Type}

/-- Whatever the outcome, `f` of the state is the same afterwards. -/
def Untouched (f : σ → κ) (x : M σ α) : Prop := ∀ s, f (x s).2 = f s

theorem Untouched.pure (f : σ → κ) (a : α) : Untouched f (pure a : M σ α) := fun _ => rfl
theorem Untouched.get (f : σ → κ) : Untouched f (M.get : M σ σ) := fun _ => rfl
theorem Untouched.ub (f : σ → κ) : Untouched f (M.ub : M σ α) := fun _ => rfl

theorem Untouched.modify {f : σ → κ} {g : σ → σ} (h : ∀ s, f (g s) = f s) : Untouched f (M.modify g) := h

theorem Untouched.noexcept {f : σ → κ} {x : M σ α} (h : Untouched f x) : Untouched f (M.noexcept x) := h

theorem Untouched.bind {f : σ → κ} {x : M σ α} {g : α → M σ β} (h : Untouched f x)
    (hg : ∀ a, Untouched f (g a)) : Untouched f (x >>= g) := by
  intro s
  rw [M.bind_apply]
  have h1 := h s
  cases e : x s with
  | mk o s' =>
    rw [e] at h1
    cases o with
    | ok a => exact (hg a s').trans h1
    | throw => exact h1
    | terminate => exact h1
    | ub => exact h1
    | hang => exact h1

theorem Untouched.ite {f : σ → κ} {c : Prop} [Decidable c] {x y : M σ α} (hx : Untouched f x)
    (hy : Untouched f y) : Untouched f (if c then x else y) := by
  split
  · exact hx
  · exact hy

theorem Untouched.runList {ι : Type} {f : σ → κ} {step : ι → M σ α} (h : ∀ i, Untouched f (step i))
    (is : List ι) : Untouched f (M.runList step is) := by
  induction is with
  | nil => exact .pure _ _
  | cons i is ih => exact .bind (h i) fun _ => .bind ih fun _ => .pure _ _

end M

open M

namespace Res

variable {δ α κ : Type} {f : δ → κ}

theorem onDev_keeps {x : M δ α} (h : Untouched f x) : Untouched (fun r => f r.dev) (onDev x) :=
  fun r => h r.dev

theorem bufRead_keeps (n : Nat) : Untouched (fun r : Res δ => f r.dev) (bufRead n) := by
  intro r
  unfold bufRead
  split <;> rfl

theorem bufWrite_keeps (bytes : List Byte) : Untouched (fun r : Res δ => f r.dev) (bufWrite bytes) := by
  intro r
  unfold bufWrite
  split <;> rfl

variable {raw : Nat → ReadRequest → M δ ReadResult} {rawW : List Byte → M δ Nat}
  {seek : Int → PositionReference → M δ Unit}

theorem fill_keeps (h : ∀ n rr, Untouched f (raw n rr)) : Untouched (fun r => f r.dev) (fill raw) :=
  .bind (.get _) fun _ => .bind (onDev_keeps (h _ _)) fun _ => .bind (.modify fun _ => rfl) fun _ =>
    .bind (.modify fun _ => rfl) fun _ => .bind (.modify fun _ => rfl) fun _ => .pure _ _

theorem drain_keeps (n : Nat) : Untouched (fun r : Res δ => f r.dev) (drain n) :=
  .ite (bufRead_keeps _) (.pure _ _)

theorem readLoaded_keeps (h : ∀ n rr, Untouched f (raw n rr)) (n : Nat) :
    Untouched (fun r => f r.dev) (readLoaded raw n) :=
  .bind (.get _) fun _ => .ite
    (.ite (.ub _) (.bind (drain_keeps _) fun _ => .ite
      (.bind (onDev_keeps (h _ _)) fun _ => .pure _ _)
      (.bind (fill_keeps h) fun _ => .bind (bufRead_keeps _) fun _ => .pure _ _)))
    (.bind (bufRead_keeps _) fun _ => .pure _ _)

theorem read_keeps (h : ∀ n rr, Untouched f (raw n rr)) (n : Nat) :
    Untouched (fun r => f r.dev) (read raw n) :=
  .bind (.get _) fun _ => .ite
    (.bind (.get _) fun _ => .ite (.bind (fill_keeps h) fun _ => readLoaded_keeps h n)
      (readLoaded_keeps h n))
    (onDev_keeps (h _ _))

theorem flush_keeps (h : ∀ bytes, Untouched f (rawW bytes)) : Untouched (fun r => f r.dev) (flush rawW) :=
  .bind (.get _) fun _ => .ite
    (.ite (.ub _) (.bind (onDev_keeps (h _)) fun _ => .modify fun _ => rfl)) (.pure _ _)

theorem write_keeps (h : ∀ bytes, Untouched f (rawW bytes)) (bytes : List Byte) :
    Untouched (fun r => f r.dev) (write rawW bytes) :=
  .bind (.get _) fun _ => .ite
    (.bind (.get _) fun _ => .ite
      (.bind (flush_keeps h) fun _ => .ite (onDev_keeps (h _)) (bufWrite_keeps _))
      (bufWrite_keeps _))
    (onDev_keeps (h _))

theorem setPositionIO_keeps (h : ∀ bytes, Untouched f (rawW bytes)) (hs : ∀ p pr, Untouched f (seek p pr))
    (p : Int) (pr : PositionReference) :
    Untouched (fun r => f r.dev) (setPositionIO rawW seek p pr) :=
  .noexcept (.bind (flush_keeps h) fun _ => .bind (onDev_keeps (hs _ _)) fun _ =>
    .modify fun _ => rfl)

end Res

namespace Ctr

theorem seek_keeps (p : Int) (pr : PositionReference) : Untouched elem (seek p pr) := by
  intro c
  cases pr <;> rfl

theorem readRaw_keeps (n : Nat) (rr : ReadRequest) : Untouched elem (readRaw n rr) :=
  .bind (.bind (.get _) fun _ => .ite (.noexcept (seek_keeps _ _)) (.pure _ _)) fun _ =>
    .bind (by
      intro c
      unfold copyOut
      split <;> rfl) fun _ =>
    .bind (.ite (.bind (.noexcept (seek_keeps _ _)) fun _ => .modify fun _ => rfl) (.pure _ _))
      fun _ => .pure _ _

theorem writeRaw_keeps (bytes : List Byte) : Untouched elem (writeRaw bytes) := by
  intro c
  unfold writeRaw
  by_cases h : c.position < 0
  · rw [if_pos h]
  · rw [if_neg h]
    simp only
    split <;> (try split) <;> rfl

end Ctr

/-- The operations of a container resource keep the element size. -/
theorem ResOp.run_keeps (op : ResOp) : Untouched (fun r => r.dev.elem) op.run := by
  cases op with
  | read n => exact .bind (Res.read_keeps Ctr.readRaw_keeps n) fun _ => .pure _ _
  | write bytes => exact .bind (Res.write_keeps Ctr.writeRaw_keeps bytes) fun _ => .pure _ _
  | flush => exact .bind (Res.flush_keeps Ctr.writeRaw_keeps) fun _ => .pure _ _
  | seek p pr =>
    exact .bind (Res.setPositionIO_keeps Ctr.writeRaw_keeps Ctr.seek_keeps p pr) fun _ => .pure _ _
  | position => exact .bind (.get _) fun _ => .pure _ _
  | atEnd => exact .bind (.get _) fun _ => .pure _ _

end Cmp
