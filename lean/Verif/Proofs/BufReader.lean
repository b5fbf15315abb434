import Verif.Proofs.RingView
import Verif.Spec.Buffer
/- Helper lemmas: `BufReader` on a viewed ring. -/
namespace Vmap
open Spec Kernel
variable {σ : Type}

theorem taken_append (a b : List ReadEvent) : taken (a ++ b) = taken a ++ taken b := by
  simp [taken]

theorem taken_one (e : ReadEvent) : taken [e] = e.bytes := by simp [taken]

theorem spy_read {R : Reader σ} {p : σ × List ReadEvent} {off : List Byte} {s' : σ} {r : ReadResp}
    (h : R.read p.1 off = (s', r)) : R.spy.read p off = ((s', p.2 ++ [⟨off, r⟩]), r) := by
  simp only [Reader.spy, h]

/-- What one `fill_buf` does. -/
inductive Filled (R : Reader σ) (t : Target) (b : BufReader (σ × List ReadEvent)) (n : Nat)
    (q sp : List Byte) (k : Kernel) : Kernel → BufReader (σ × List ReadEvent) →
    Out (List Byte) → Prop
  | asked (k' : Kernel) (b' : BufReader (σ × List ReadEvent)) (m : Nat) (stored sp' : List Byte)
      (low : q.length ≤ b.lowat)
      (log : b'.inner.2 = b.inner.2 ++ [⟨sp, .ok m stored⟩])
      (call : R.read b.inner.1 sp = (b'.inner.1, .ok m stored))
      (lowat : b'.lowat = b.lowat) (len : b'.buf.len = b.buf.len) (ptr : b'.buf.ptr = b.buf.ptr)
      (view : View t k' b'.buf (n + min m sp.length)
        (q ++ ReadEvent.bytes ⟨sp, .ok m stored⟩) sp') :
      Filled R t b n q sp k k' b' (.ok (q ++ ReadEvent.bytes ⟨sp, .ok m stored⟩))
  | failed (k' : Kernel) (b' : BufReader (σ × List ReadEvent)) (e : IoError)
      (stored sp' : List Byte)
      (low : q.length ≤ b.lowat)
      (log : b'.inner.2 = b.inner.2 ++ [⟨sp, .err e stored⟩])
      (call : R.read b.inner.1 sp = (b'.inner.1, .err e stored))
      (lowat : b'.lowat = b.lowat) (buf : b'.buf = b.buf)
      (view : View t k' b'.buf n q sp') : Filled R t b n q sp k k' b' (.err e)
  | unwound (k' : Kernel) (b' : BufReader (σ × List ReadEvent)) (stored sp' : List Byte)
      (low : q.length ≤ b.lowat)
      (log : b'.inner.2 = b.inner.2 ++ [⟨sp, .panic stored⟩])
      (call : R.read b.inner.1 sp = (b'.inner.1, .panic stored))
      (lowat : b'.lowat = b.lowat) (buf : b'.buf = b.buf)
      (view : View t k' b'.buf n q sp') : Filled R t b n q sp k k' b' .unwound
  | enough (high : b.lowat < q.length) : Filled R t b n q sp k k b (.ok q)

theorem fill_view (R : Reader σ) {t : Target} {k : Kernel} {b : BufReader (σ × List ReadEvent)}
    {n : Nat} {q sp : List Byte} (h : View t k b.buf n q sp)
    (hb : n + b.buf.len < posBound t b.buf.len) :
    ∃ k' b' x, b.fillBuf R.spy t k = .ok (k', b', x) ∧ Filled R t b n q sp k k' b' x := by
  have hl := h.len
  simp only [BufReader.fillBuf, h.readLen, bind, Except.bind]
  by_cases hlow : q.length ≤ b.lowat
  · rw [if_pos hlow]
    simp only [h.writeSlice]
    cases hr : R.read b.inner.1 sp with
    | mk s' resp =>
      rw [spy_read hr]
      cases resp with
      | ok m stored =>
        obtain ⟨k1, e1, v1⟩ := h.poke stored
        have hl1 : (stored.take sp.length ++ sp.drop stored.length).length = sp.length := by
          simp; omega
        obtain ⟨r2, e2, v2, l2, p2⟩ := v1.feed m (by rw [hl1]; omega)
        rw [hl1] at v2
        simp only [e1, e2, BufReader.buffer, v2.readSlice, pure, Except.pure]
        exact ⟨_, _, _, rfl, .asked _ _ m stored _ hlow rfl hr rfl l2 p2 v2⟩
      | err e stored =>
        obtain ⟨k1, e1, v1⟩ := h.poke stored
        simp only [e1, pure, Except.pure]
        exact ⟨_, _, _, rfl, .failed _ _ e stored _ hlow rfl hr rfl rfl v1⟩
      | panic stored =>
        obtain ⟨k1, e1, v1⟩ := h.poke stored
        simp only [e1, pure, Except.pure]
        exact ⟨_, _, _, rfl, .unwound _ _ stored _ hlow rfl hr rfl rfl v1⟩
  · rw [if_neg hlow]
    simp only [BufReader.buffer, h.readSlice, pure, Except.pure]
    exact ⟨_, _, _, rfl, .enough (by omega)⟩

/-- The new view after `fill_buf`. -/
theorem Filled.after {R : Reader σ} {t : Target} {b b' : BufReader (σ × List ReadEvent)} {n : Nat}
    {q sp : List Byte} {k k' : Kernel} {x : Out (List Byte)} (h : View t k b.buf n q sp)
    (f : Filled R t b n q sp k k' b' x) :
    ∃ n' q' sp', View t k' b'.buf n' q' sp' ∧ n' ≤ n + b.buf.len ∧ b'.buf.len = b.buf.len ∧
      b'.buf.ptr = b.buf.ptr ∧
      (∃ new, taken b'.inner.2 = taken b.inner.2 ++ new ∧ q' = q ++ new) ∧
      (∀ rem, x = .ok rem → q' = rem) := by
  have hl := h.len
  cases f with
  | asked _ _ m stored sp' low log call lowat len ptr view =>
    exact ⟨_, _, _, view, by omega, len, ptr, ⟨_, by rw [log, taken_append, taken_one], rfl⟩,
      fun _ e => by injection e⟩
  | failed _ _ e stored sp' low log call lowat buf view =>
    refine ⟨_, _, _, view, by omega, by rw [buf], by rw [buf], ⟨[], ?_, by simp⟩,
      fun _ e => by cases e⟩
    rw [log, taken_append, taken_one]; rfl
  | unwound _ _ stored sp' low log call lowat buf view =>
    refine ⟨_, _, _, view, by omega, by rw [buf], by rw [buf], ⟨[], ?_, by simp⟩,
      fun _ e => by cases e⟩
    rw [log, taken_append, taken_one]; rfl
  | enough high =>
    exact ⟨_, _, _, h, by omega, rfl, rfl, ⟨[], by simp, by simp⟩, fun _ e => by injection e⟩

/-- What one `read` does. -/
inductive DidRead (R : Reader σ) (t : Target) (b : BufReader (σ × List ReadEvent)) (n : Nat)
    (q sp : List Byte) (k : Kernel) (dst : List Byte) : Kernel →
    BufReader (σ × List ReadEvent) → List Byte → Out Nat → Prop
  | direct (s' : σ) (resp : ReadResp) (d : List Byte) (x : Out Nat) (empty : q = [])
      (big : b.buf.len ≤ dst.length)
      (call : R.read b.inner.1 dst = (s', resp))
      (res : match resp with
        | .ok m stored => d = BufReader.storeFront dst stored ∧ x = .ok m
        | .err e stored => d = BufReader.storeFront dst stored ∧ x = .err e
        | .panic stored => d = BufReader.storeFront dst stored ∧ x = .unwound) :
      DidRead R t b n q sp k dst k { b with inner := (s', b.inner.2 ++ [⟨dst, resp⟩]) } d x
  | buffered (k' : Kernel) (b1 b' : BufReader (σ × List ReadEvent)) (rem sp' : List Byte) (n' : Nat)
      (small : ¬ (q = [] ∧ b.buf.len ≤ dst.length))
      (fill : Filled R t b n q sp k k' b1 (.ok rem))
      (inner : b'.inner = b1.inner) (lowat : b'.lowat = b1.lowat) (len : b'.buf.len = b.buf.len)
      (ptr : b'.buf.ptr = b.buf.ptr)
      (le : n' ≤ n + b.buf.len)
      (view : View t k' b'.buf n' (rem.drop dst.length) sp') :
      DidRead R t b n q sp k dst k' b'
        (BufReader.storeFront dst (rem.take (min rem.length dst.length)))
        (.ok (min rem.length dst.length))
  | failed (k' : Kernel) (b' : BufReader (σ × List ReadEvent)) (e : IoError)
      (small : ¬ (q = [] ∧ b.buf.len ≤ dst.length))
      (fill : Filled R t b n q sp k k' b' (.err e)) : DidRead R t b n q sp k dst k' b' dst (.err e)
  | unwound (k' : Kernel) (b' : BufReader (σ × List ReadEvent))
      (small : ¬ (q = [] ∧ b.buf.len ≤ dst.length))
      (fill : Filled R t b n q sp k k' b' .unwound) : DidRead R t b n q sp k dst k' b' dst .unwound

theorem read_view (R : Reader σ) {t : Target} {k : Kernel} {b : BufReader (σ × List ReadEvent)}
    {n : Nat} {q sp : List Byte} (h : View t k b.buf n q sp)
    (hb : n + b.buf.len < posBound t b.buf.len) (dst : List Byte) :
    ∃ k' b' d x, b.read R.spy t k dst = .ok (k', b', d, x) ∧
      DidRead R t b n q sp k dst k' b' d x := by
  have hl := h.len
  simp only [BufReader.read, h.readLen, bind, Except.bind, SeqWrite.writeCapacity]
  by_cases hc : q.length = 0 ∧ dst.length ≥ b.buf.len
  · rw [if_pos hc]
    have hq : q = [] := List.eq_nil_of_length_eq_zero hc.1
    cases hr : R.read b.inner.1 dst with
    | mk s' resp =>
      rw [spy_read hr]
      cases resp with
      | ok m stored =>
        exact ⟨_, _, _, _, rfl, .direct s' (.ok m stored) _ _ hq hc.2 hr ⟨rfl, rfl⟩⟩
      | err e stored =>
        exact ⟨_, _, _, _, rfl, .direct s' (.err e stored) _ _ hq hc.2 hr ⟨rfl, rfl⟩⟩
      | panic stored =>
        exact ⟨_, _, _, _, rfl, .direct s' (.panic stored) _ _ hq hc.2 hr ⟨rfl, rfl⟩⟩
  · rw [if_neg hc]
    have small : ¬ (q = [] ∧ b.buf.len ≤ dst.length) := fun ⟨a, c⟩ => hc ⟨by simp [a], c⟩
    obtain ⟨k1, b1, x, e1, hf⟩ := fill_view R h hb
    rw [e1]
    obtain ⟨n', q', sp', v, hn, hle, hp, -, hx⟩ := hf.after h
    simp only
    cases x with
    | ok rem =>
      have := hx rem rfl
      subst this
      obtain ⟨r2, e2, v2, l2, p2⟩ := v.consume (min q'.length dst.length)
      have hd : q'.drop (min q'.length dst.length) = q'.drop dst.length := by
        by_cases c : q'.length ≤ dst.length
        · rw [Nat.min_eq_left c, List.drop_length, List.drop_eq_nil_of_le c]
        · rw [Nat.min_eq_right (by omega)]
      rw [hd] at v2
      simp only [BufReader.consume, e2, bind, Except.bind, pure, Except.pure]
      exact ⟨_, _, _, _, rfl, .buffered k1 b1 _ q' _ n' small hf rfl rfl (by rw [← hle]; exact l2)
        (by rw [← hp]; exact p2) hn v2⟩
    | err e => exact ⟨_, _, _, _, rfl, .failed k1 b1 e small hf⟩
    | unwound => exact ⟨_, _, _, _, rfl, .unwound k1 b1 small hf⟩
    | pending => cases hf

theorem storeFront_take (dst bs : List Byte) (h : bs.length ≤ dst.length) :
    (BufReader.storeFront dst bs).take bs.length = bs := by
  rw [BufReader.storeFront, List.take_of_length_le h, List.take_left]

end Vmap
