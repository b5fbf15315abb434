import Verif.Model.BufferViews
import Verif.Props.BufferStd
/-
Property theorem C104: the accessors of buffered readers and writers.
-/
namespace Vmap
open Spec Kernel
variable {σ α : Type}

/-! ### C104 -/

theorem fillBuf_lowat {R : Reader σ} {t : Target} {k k' : Kernel} {b b' : BufReader σ}
    {x : Out (List Byte)} (e : b.fillBuf R t k = .ok (k', b', x)) : b'.lowat = b.lowat := by
  simp only [BufReader.fillBuf, bind, Except.bind, pure, Except.pure] at e
  repeat' split at e
  all_goals first
    | (cases e; done)
    | (injection e with e; injection e with e1 e2; injection e2 with e2 e3; subst e2; rfl)

theorem read_lowat {R : Reader σ} {t : Target} {k k' : Kernel} {b b' : BufReader σ}
    {dst d : List Byte} {x : Out Nat} (e : b.read R t k dst = .ok (k', b', d, x)) :
    b'.lowat = b.lowat := by
  simp only [BufReader.read, bind, Except.bind, pure, Except.pure] at e
  split at e
  · cases e
  · split at e
    · split at e
      all_goals (injection e with e; injection e with e1 e2; injection e2 with e2 e3; subst e2; rfl)
    · split at e
      · cases e
      · rename_i v hv
        obtain ⟨k1, b1, x1⟩ := v
        have hh := fillBuf_lowat hv
        cases x1 with
        | ok rem =>
          simp only [BufReader.consume, bind, Except.bind, pure, Except.pure] at e
          repeat' split at e
          all_goals first | (cases e; done) | skip
          rename_i v2 hv2
          split at hv2
          · cases hv2
          · injection hv2 with hv2
            injection e with e; injection e with e1 e2; injection e2 with e2 e3
            subst e2 hv2
            exact hh
        | err _ => injection e with e; injection e with e1 e2; injection e2 with e2 e3; subst e2; exact hh
        | unwound => injection e with e; injection e with e1 e2; injection e2 with e2 e3; subst e2; exact hh
        | pending => injection e with e; injection e with e1 e2; injection e2 with e2 e3; subst e2; exact hh

/-- The level after a history of calls, starting from `l`: the one that was set last. -/
def Spec.levelAfter (l : Nat) : List RdOp → Nat
  | [] => l
  | .setLowat n :: ops => levelAfter n ops
  | _ :: ops => levelAfter l ops

theorem exec_lowat {R : Reader σ} {t : Target} {k k' : Kernel} {b b' : BufReader σ} {op : RdOp}
    {x : RdResp} {out : List Byte} (e : b.exec R t k op = .ok ((k', b'), x, out)) :
    b'.lowat = levelAfter b.lowat [op] := by
  simp only [BufReader.exec, bind, Except.bind, pure, Except.pure] at e
  split at e
  · cases e
  · cases op with
    | read dst =>
      simp only at e
      split at e
      · cases e
      · rename_i v hv
        obtain ⟨k1, b1, d1, x1⟩ := v
        have := read_lowat hv
        injection e with e; injection e with e1 e2; injection e1 with e1 e3; subst e3; exact this
    | fillBuf =>
      simp only at e
      split at e
      · cases e
      · rename_i v hv
        obtain ⟨k1, b1, x1⟩ := v
        have := fillBuf_lowat hv
        injection e with e; injection e with e1 e2; injection e1 with e1 e3; subst e3; exact this
    | consume m =>
      simp only [BufReader.consume, bind, Except.bind, pure, Except.pure] at e
      split at e
      · cases e
      · rename_i v hv
        split at hv
        · cases hv
        · injection hv with hv
          injection e with e; injection e with e1 e2; injection e1 with e1 e3
          subst e3 hv; rfl
    | setLowat m =>
      injection e with e; injection e with e1 e2; injection e1 with e1 e3; subst e3; rfl

/-- C104: `lowat` is what was set last, and 0 on a new reader; no other call changes it. -/
theorem C104_lowat (R : Reader σ) (t : Target) :
    (∀ (k k' : Kernel) (s : σ) (c : Nat) (b : BufReader σ),
      BufReader.new t k s c = .ok (k', .ok b) → b.getLowat = 0 ∧ b.getRef = s) ∧
    ∀ (ops : List RdOp) (k k' : Kernel) (b b' : BufReader σ) (out : List Byte),
      b.execAll R t k ops = .ok ((k', b'), out) → b'.getLowat = levelAfter b.getLowat ops := by
  constructor
  · intro k k' s c b h
    simp only [BufReader.new, bind, Except.bind, pure, Except.pure] at h
    repeat' split at h
    all_goals first | (cases h; done) | skip
    all_goals (injection h with h; injection h with _ h; first | (cases h; done) | skip)
    injection h with h
    subst h
    exact ⟨rfl, rfl⟩
  · intro ops
    induction ops with
    | nil =>
      intro k k' b b' out h
      simp only [BufReader.execAll, pure, Except.pure] at h
      injection h with h; injection h with h _; injection h with _ h
      subst h; rfl
    | cons op ops ih =>
      intro k k' b b' out h
      simp only [BufReader.execAll, bind, Except.bind, pure, Except.pure] at h
      split at h
      · cases h
      · rename_i v hv
        obtain ⟨⟨k1, b1⟩, x, o1⟩ := v
        dsimp only at h
        split at h
        · cases h
        · rename_i v2 hv2
          obtain ⟨⟨k2, b2⟩, o2⟩ := v2
          injection h with h; injection h with h _
          injection h with h1 h2
          subst h1 h2
          have := ih _ _ _ _ _ hv2
          rw [this]
          have hx := exec_lowat hv
          show levelAfter b1.lowat ops = levelAfter b.lowat (op :: ops)
          rw [hx]
          cases op <;> rfl

/-- C104: `get_ref`, `*`, `as_ref` and their mutable versions all reach the inner object, and
leave everything else of the reader or writer alone. -/
theorem C104_inner (b : BufReader σ) (c : BufWriter σ) (f : σ → σ × α) :
    b.deref = b.getRef ∧ b.asRef = b.getRef ∧ c.deref = c.getRef ∧ c.asRef = c.getRef ∧
    (b.derefMut f = b.getMut f ∧ b.asMut f = b.getMut f) ∧
    (c.derefMut f = c.getMut f ∧ c.asMut f = c.getMut f) ∧
    ((b.getMut f).2 = (f b.getRef).2 ∧ (b.getMut f).1.getRef = (f b.getRef).1 ∧
      (b.getMut f).1.buf = b.buf ∧ (b.getMut f).1.getLowat = b.getLowat) ∧
    ((c.getMut f).2 = (f c.getRef).2 ∧ (c.getMut f).1.getRef = (f c.getRef).1 ∧
      (c.getMut f).1.buf = c.buf ∧ (c.getMut f).1.panicked = c.panicked) :=
  ⟨rfl, rfl, rfl, rfl, ⟨rfl, rfl⟩, ⟨rfl, rfl⟩, ⟨rfl, rfl, rfl, rfl⟩, ⟨rfl, rfl, rfl, rfl⟩⟩

/-- Non-vacuity: a reader whose level is set to 100, then read from, then set to 7. -/
example : (∃ k b, BufReader.new ⟨.w64, true⟩ (demo 0) () 5000 = .ok (k, .ok b) ∧ b.getLowat = 0) ∧
    levelAfter 0 [.setLowat 100, .fillBuf, .setLowat 7, .consume 3] = 7 :=
  ⟨⟨_, _, rfl, rfl⟩, rfl⟩

end Vmap
