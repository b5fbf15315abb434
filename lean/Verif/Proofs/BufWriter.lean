import Verif.Proofs.RingView
import Verif.Spec.Buffer
/- Helper lemmas: `BufWriter` on a viewed ring. -/
namespace Vmap
open Spec Kernel
variable {σ : Type}

theorem received_append (a b : List WriteEvent) :
    received (a ++ b) = received a ++ received b := by
  simp [received]

theorem received_one (e : WriteEvent) : received [e] = e.bytes := by simp [received]

theorem received_cons (e : WriteEvent) (l : List WriteEvent) :
    received (e :: l) = e.bytes ++ received l := by simp [received]

theorem lastWrite_write (l : List WriteEvent) (d : List Byte) (r : WriteResp) :
    lastWrite (l ++ [.write d r]) = some r := by simp [lastWrite]

theorem lastWrite_flush (l : List WriteEvent) (r : FlushResp) :
    lastWrite (l ++ [.flush r]) = lastWrite l := by simp [lastWrite]

theorem spy_write {W : Writer σ} {p : σ × List WriteEvent} {d : List Byte} {s' : σ} {r : WriteResp}
    (h : W.write p.1 d = (s', r)) : W.spy.write p d = ((s', p.2 ++ [.write d r]), r) := by
  simp only [Writer.spy, h]

theorem spy_flush {W : Writer σ} {p : σ × List WriteEvent} {s' : σ} {r : FlushResp}
    (h : W.flush p.1 = (s', r)) : W.spy.flush p = ((s', p.2 ++ [.flush r]), r) := by
  simp only [Writer.spy, h]

theorem Drains.split {q q' : List Byte} {ev : List WriteEvent} (h : Drains q ev q') :
    q = received ev ++ q' := by
  induction h with
  | stop q => simp [received]
  | took n hn left rest ih =>
    rename_i q _ _
    rw [received_cons, List.append_assoc, ← ih]
    exact (List.take_append_drop n q).symm
  | again e intr left rest ih =>
    rw [received_cons, List.append_assoc, ← ih]; rfl

/-- The last answer while draining is not a panic. -/
theorem Drains.last {q q' : List Byte} {ev : List WriteEvent} (h : Drains q ev q')
    (log : List WriteEvent) :
    (ev = [] ∧ lastWrite (log ++ ev) = lastWrite log) ∨
    (ev ≠ [] ∧ lastWrite (log ++ ev) ≠ some .panic) := by
  induction h generalizing log with
  | stop q => simp
  | took n hn left rest ih =>
    rename_i q _ ev
    refine .inr ⟨by simp, ?_⟩
    rw [← List.singleton_append, ← List.append_assoc]
    rcases ih (log ++ [.write q (.ok n)]) with ⟨-, i⟩ | ⟨-, i⟩
    · rw [i, lastWrite_write]; simp
    · exact i
  | again e intr left rest ih =>
    rename_i q _ ev
    refine .inr ⟨by simp, ?_⟩
    rw [← List.singleton_append, ← List.append_assoc]
    rcases ih (log ++ [.write q (.err e)]) with ⟨-, i⟩ | ⟨-, i⟩
    · rw [i, lastWrite_write]; simp
    · exact i

/-- Rounds are bounded by the bytes sent plus the interruptions. -/
theorem Drains.rounds {q q' : List Byte} {ev : List WriteEvent} (h : Drains q ev q') :
    ev.length + q'.length ≤ q.length + refused ev := by
  induction h with
  | stop q => simp [refused]
  | took n hn left rest ih =>
    have := List.length_pos_iff.mpr left
    simp only [refused, List.length_drop, List.length_cons, List.filter_cons] at *
    split <;> simp_all <;> omega
  | again e intr left rest ih =>
    simp only [refused, List.length_cons, List.filter_cons, if_true] at *
    omega

/-- The `panicked` flag after a flush. -/
def flagAfter (p : Bool) (ev : List WriteEvent) (x : Out Unit) : Bool :=
  if x = .unwound then true else if ev = [] then p else false

theorem flush_view (W : Writer σ) {t : Target} {k : Kernel} {n : Nat} : ∀ (fuel : Nat)
    {b : BufWriter (σ × List WriteEvent)} {q sp : List Byte}, View t k b.buf n q sp →
    ∃ b' x ev q' sp', BufWriter.flushBuf W.spy t k fuel b = .ok (b', x) ∧
      View t k b'.buf n q' sp' ∧ b'.buf.len = b.buf.len ∧ b'.buf.ptr = b.buf.ptr ∧
      b'.inner.2 = b.inner.2 ++ ev ∧ Flush fuel q ev q' x ∧
      b'.panicked = flagAfter b.panicked ev x
  | 0, b, q, sp, h =>
    ⟨b, .pending, [], q, sp, rfl, h, rfl, rfl, by simp, .running (.stop q) rfl,
      by simp [flagAfter]⟩
  | fuel + 1, b, q, sp, h => by
    simp only [BufWriter.flushBuf, h.isEmpty_eq, BufWriter.buffered, h.readSlice, bind,
      Except.bind]
    by_cases hq : q = []
    · subst hq
      refine ⟨b, .ok (), [], [], sp, by simp [pure, Except.pure], h, rfl, rfl, by simp,
        .done (.stop _), by simp [flagAfter]⟩
    have hne : (q.length == 0) = false := by
      simp [hq]
    rw [hne]
    simp only [Bool.false_eq_true, if_false]
    cases hr : W.write b.inner.1 q with
    | mk s' resp =>
      rw [spy_write hr]
      cases resp with
      | panic =>
        exact ⟨_, _, _, q, sp, rfl, h, rfl, rfl, rfl, .stopped (ev := []) .panic (.stop q) hq rfl,
          by simp [flagAfter]⟩
      | ok m =>
        cases m with
        | zero =>
          exact ⟨_, _, _, q, sp, rfl, h, rfl, rfl, rfl,
            .stopped (ev := []) (.ok 0) (.stop q) hq ⟨rfl, rfl⟩, by simp [flagAfter]⟩
        | succ m =>
          obtain ⟨r', e, v, l, p⟩ := h.consume (m + 1)
          simp only [e]
          obtain ⟨b', x, ev, q', sp', e2, v2, l2, p2, lg, fl, pk⟩ :=
            flush_view W fuel
              (b := ⟨r', (s', b.inner.2 ++ [.write q (.ok (m + 1))]), false⟩) v
          refine ⟨b', x, .write q (.ok (m + 1)) :: ev, q', sp', e2, v2, by rw [l2]; exact l,
            by rw [p2]; exact p, by rw [lg]; simp, ?_, ?_⟩
          · cases fl with
            | done all => exact .done (.took _ (by simp) hq all)
            | stopped r part left why =>
              exact .stopped (ev := .write q (.ok (m + 1)) :: _) r (.took _ (by simp) hq part)
                left why
            | running part all => exact .running (.took _ (by simp) hq part) (by simp [all])
          · rw [pk]; simp [flagAfter]
      | err e =>
        by_cases hi : e.kind = .interrupted
        · simp only [if_pos hi]
          obtain ⟨b', x, ev, q', sp', e2, v2, l2, p2, lg, fl, pk⟩ :=
            flush_view W fuel
              (b := ⟨b.buf, (s', b.inner.2 ++ [.write q (.err e)]), false⟩) h
          refine ⟨b', x, .write q (.err e) :: ev, q', sp', e2, v2, l2, p2,
            by rw [lg]; simp, ?_, ?_⟩
          · cases fl with
            | done all => exact .done (.again _ hi hq all)
            | stopped r part left why =>
              exact .stopped (ev := .write q (.err e) :: _) r (.again _ hi hq part) left why
            | running part all => exact .running (.again _ hi hq part) (by simp [all])
          · rw [pk]; simp [flagAfter]
        · simp only [if_neg hi]
          exact ⟨_, _, _, q, sp, rfl, h, rfl, rfl, rfl,
            .stopped (ev := []) (.err e) (.stop q) hq ⟨hi, rfl⟩, by simp [flagAfter]⟩

theorem Flush.split {fuel : Nat} {q q' : List Byte} {ev : List WriteEvent} {x : Out Unit}
    (h : Flush fuel q ev q' x) : q = received ev ++ q' := by
  cases h with
  | done all => exact all.split
  | stopped r part left why =>
    have := part.split
    rw [received_append, received_one]
    have hb : (WriteEvent.write q' r).bytes = [] := by
      cases r with
      | ok n => simp only [stopsWith] at why; simp [WriteEvent.bytes, why.1]
      | err e => rfl
      | panic => rfl
    rw [hb, List.append_nil]
    exact this
  | running part all => exact part.split

theorem Flush.last {fuel : Nat} {q q' : List Byte} {ev : List WriteEvent} {x : Out Unit}
    (h : Flush fuel q ev q' x) (log : List WriteEvent) (p : Bool)
    (hp : p = true ↔ lastWrite log = some .panic) :
    flagAfter p ev x = true ↔ lastWrite (log ++ ev) = some .panic := by
  cases h with
  | done all =>
    rcases all.last log with ⟨h1, h2⟩ | ⟨h1, h2⟩
    · rw [h2]; simp [flagAfter, h1, hp]
    · simp [flagAfter, h1, h2]
  | running part all =>
    rcases part.last log with ⟨h1, h2⟩ | ⟨h1, h2⟩
    · rw [h2]; simp [flagAfter, h1, hp]
    · simp [flagAfter, h1, h2]
  | stopped r part left why =>
    rw [← List.append_assoc, lastWrite_write]
    cases r with
    | ok n => simp only [stopsWith] at why; simp [flagAfter, why.2]
    | err e => simp only [stopsWith] at why; simp [flagAfter, why.2]
    | panic => simp only [stopsWith] at why; simp [flagAfter, why]

/-- The flush preceding a write that does not fit, if any. -/
inductive Pre (fuel : Nat) (cap : Nat) (q : List Byte) (p : Bool) (len : Nat) :
    List WriteEvent → List Byte → Bool → Prop
  | fits (short : len ≤ cap - q.length) : Pre fuel cap q p len [] q p
  | flushed {ev : List WriteEvent} (long : cap - q.length < len)
      (fl : Flush fuel q ev [] (.ok ())) : Pre fuel cap q p len ev [] (flagAfter p ev (.ok ()))

/-- What a direct write of the inner writer is reported as. -/
def asOut : WriteResp → Out Nat
  | .ok n => .ok n
  | .err e => .err e
  | .panic => .unwound

/-- The result of a failed flush, as result of the write. -/
def asNat : Out Unit → Out Nat
  | .ok _ => .ok 0
  | .err e => .err e
  | .unwound => .unwound
  | .pending => .pending

/-- What `write(data)` does on a buffer of capacity `cap` holding `q`. -/
inductive DidWrite (fuel cap : Nat) (q : List Byte) (p : Bool) (data : List Byte) :
    List WriteEvent → List Byte → Bool → Out Nat → Prop
  | stopped {ev : List WriteEvent} {q' : List Byte} {y : Out Unit}
      (long : cap - q.length < data.length) (fl : Flush fuel q ev q' y) (bad : y ≠ .ok ()) :
      DidWrite fuel cap q p data ev q' (flagAfter p ev y) (asNat y)
  | direct {ev : List WriteEvent} {q' : List Byte} {p' : Bool} (r : WriteResp)
      (pre : Pre fuel cap q p data.length ev q' p') (big : cap - q'.length ≤ data.length) :
      DidWrite fuel cap q p data (ev ++ [.write data r]) q' (decide (r = .panic)) (asOut r)
  | buffered {ev : List WriteEvent} {q' : List Byte} {p' : Bool}
      (pre : Pre fuel cap q p data.length ev q' p') (small : data.length < cap - q'.length) :
      DidWrite fuel cap q p data ev (q' ++ data) p' (.ok data.length)

theorem writeRest_view (W : Writer σ) {t : Target} {k : Kernel}
    {b : BufWriter (σ × List WriteEvent)} {n : Nat} {q sp : List Byte}
    (h : View t k b.buf n q sp) (hb : n + b.buf.len < posBound t b.buf.len) (data : List Byte) :
    ∃ k' b' x, b.writeRest W.spy t k data = .ok (k', b', x) ∧ b'.buf.len = b.buf.len ∧
      b'.buf.ptr = b.buf.ptr ∧
      ((b.buf.len - q.length ≤ data.length ∧ ∃ r, x = asOut r ∧ k' = k ∧ b'.buf = b.buf ∧
          b'.inner.2 = b.inner.2 ++ [.write data r] ∧ b'.panicked = decide (r = .panic)) ∨
       (data.length < b.buf.len - q.length ∧ x = .ok data.length ∧ b'.inner = b.inner ∧
          b'.panicked = b.panicked ∧
          ∃ n' sp', n' ≤ n + b.buf.len ∧ View t k' b'.buf n' (q ++ data) sp')) := by
  have hl := h.len
  simp only [BufWriter.writeRest, h.writeLen, bind, Except.bind]
  by_cases c : data.length ≥ sp.length
  · rw [if_pos c]
    cases hr : W.write b.inner.1 data with
    | mk s' resp =>
      rw [spy_write hr]
      cases resp with
      | panic => exact ⟨_, _, _, rfl, rfl, rfl, .inl ⟨by omega, .panic, rfl, rfl, rfl, rfl, rfl⟩⟩
      | ok m => exact ⟨_, _, _, rfl, rfl, rfl, .inl ⟨by omega, .ok m, rfl, rfl, rfl, rfl, rfl⟩⟩
      | err e => exact ⟨_, _, _, rfl, rfl, rfl, .inl ⟨by omega, .err e, rfl, rfl, rfl, rfl, rfl⟩⟩
  · rw [if_neg c]
    have hm : min data.length sp.length = data.length := by omega
    obtain ⟨k', r', e, v, l, p⟩ := h.write data (by omega)
    rw [hm] at e v
    rw [List.take_of_length_le (by omega)] at v
    simp only [e, pure, Except.pure]
    exact ⟨_, _, _, rfl, l, p, .inr ⟨by omega, rfl, rfl, rfl, _, _, by omega, v⟩⟩

theorem write_view (W : Writer σ) {t : Target} {k : Kernel}
    {b : BufWriter (σ × List WriteEvent)} {n : Nat} {q sp : List Byte}
    (h : View t k b.buf n q sp) (hb : n + b.buf.len < posBound t b.buf.len) (fuel : Nat)
    (data : List Byte) :
    ∃ k' b' x ev n' q' sp', b.write W.spy t fuel k data = .ok (k', b', x) ∧
      View t k' b'.buf n' q' sp' ∧ n' ≤ n + b.buf.len ∧ b'.buf.len = b.buf.len ∧
      b'.buf.ptr = b.buf.ptr ∧ b'.inner.2 = b.inner.2 ++ ev ∧
      DidWrite fuel b.buf.len q b.panicked data ev q' b'.panicked x := by
  have hl := h.len
  simp only [BufWriter.write, h.writeLen, bind, Except.bind]
  -- second half
  have second : ∀ (b1 : BufWriter (σ × List WriteEvent)) (q1 sp1 : List Byte) (ev : List WriteEvent)
      (_ : View t k b1.buf n q1 sp1) (_ : b1.buf.len = b.buf.len) (_ : b1.buf.ptr = b.buf.ptr)
      (_ : b1.inner.2 = b.inner.2 ++ ev)
      (_ : Pre fuel b.buf.len q b.panicked data.length ev q1 b1.panicked),
      ∃ k' b' x ev n' q' sp', b1.writeRest W.spy t k data = .ok (k', b', x) ∧
      View t k' b'.buf n' q' sp' ∧ n' ≤ n + b.buf.len ∧ b'.buf.len = b.buf.len ∧
      b'.buf.ptr = b.buf.ptr ∧ b'.inner.2 = b.inner.2 ++ ev ∧
      DidWrite fuel b.buf.len q b.panicked data ev q' b'.panicked x := by
    intro b1 q1 sp1 ev v1 l1 p1 lg1 pre
    obtain ⟨k', b', x, e, l2, p2, hc⟩ := writeRest_view W v1 (by rw [l1]; exact hb) data
    rw [l1] at l2 hc
    rw [p1] at p2
    rcases hc with ⟨c1, r, hx, hk, hbuf, hlog, hp⟩ | ⟨c1, hx, hin, hp, n', sp', hn', v'⟩
    · subst hx hk
      refine ⟨k', b', _, ev ++ [.write data r], n, q1, sp1, e, by rw [hbuf]; exact v1,
        by omega, l2, p2, by rw [hlog, lg1, List.append_assoc], ?_⟩
      rw [hp]
      exact .direct r pre c1
    · subst hx
      refine ⟨k', b', _, ev, n', _, sp', e, v', hn', l2, p2, by rw [hin, lg1], ?_⟩
      rw [hp]
      exact .buffered pre c1
  by_cases c : data.length > sp.length
  · rw [if_pos c]
    obtain ⟨b1, y, ev, q1, sp1, e1, v1, l1, p1, lg1, fl, pk⟩ := flush_view W fuel h
    simp only [e1]
    have hlong : b.buf.len - q.length < data.length := by omega
    cases y with
    | ok u =>
      have hq1 : q1 = [] := by
        generalize hy : Out.ok u = y at fl
        cases fl with
        | done all => rfl
        | stopped r part left why =>
          cases r <;> simp only [stopsWith] at why <;> simp_all
        | running => cases hy
      subst hq1
      exact second b1 [] sp1 ev v1 l1 p1 lg1 (by rw [pk]; exact .flushed hlong fl)
    | err e =>
      exact ⟨_, _, _, ev, n, q1, sp1, rfl, v1, by omega, l1, p1, lg1,
        by rw [pk]; exact .stopped hlong fl (by simp)⟩
    | unwound =>
      exact ⟨_, _, _, ev, n, q1, sp1, rfl, v1, by omega, l1, p1, lg1,
        by rw [pk]; exact .stopped hlong fl (by simp)⟩
    | pending =>
      exact ⟨_, _, _, ev, n, q1, sp1, rfl, v1, by omega, l1, p1, lg1,
        by rw [pk]; exact .stopped hlong fl (by simp)⟩
  · rw [if_neg c]
    exact second b q sp [] h rfl rfl (by simp) (.fits (by omega))

theorem bw_flush_view (W : Writer σ) {t : Target} {k : Kernel}
    {b : BufWriter (σ × List WriteEvent)} {n : Nat} {q sp : List Byte}
    (h : View t k b.buf n q sp) (fuel : Nat) :
    ∃ b' x ev q' sp', b.flush W.spy t fuel k = .ok (b', x) ∧
      View t k b'.buf n q' sp' ∧ b'.buf.len = b.buf.len ∧ b'.buf.ptr = b.buf.ptr ∧
      b'.inner.2 = b.inner.2 ++ ev ∧
      ((x ≠ .ok () ∧ Flush fuel q ev q' x ∧ b'.panicked = flagAfter b.panicked ev x) ∨
       (∃ ev1 r, ev = ev1 ++ [.flush r] ∧ Flush fuel q ev1 [] (.ok ()) ∧ q' = [] ∧
          b'.panicked = flagAfter b.panicked ev1 (.ok ()) ∧
          x = match r with | .ok => .ok () | .err e => .err e | .panic => .unwound)) := by
  simp only [BufWriter.flush, bind, Except.bind]
  obtain ⟨b1, y, ev, q1, sp1, e1, v1, l1, p1, lg1, fl, pk⟩ := flush_view W fuel h
  simp only [e1]
  cases y with
  | ok u =>
    have hq1 : q1 = [] := by
      generalize hy : Out.ok u = y at fl
      cases fl with
      | done all => rfl
      | stopped r part left why =>
        cases r <;> simp only [stopsWith] at why <;> simp_all
      | running => cases hy
    subst hq1
    cases hr : W.flush b1.inner.1 with
    | mk s' resp =>
      rw [spy_flush hr]
      have hl : ∀ r, (b1.inner.2 ++ [WriteEvent.flush r]) = b.inner.2 ++ (ev ++ [.flush r]) := by
        intro r; rw [lg1, List.append_assoc]
      cases resp with
      | ok =>
        exact ⟨_, _, _, [], sp1, rfl, v1, l1, p1, hl _, .inr ⟨ev, _, rfl, fl, rfl, pk, rfl⟩⟩
      | err e =>
        exact ⟨_, _, _, [], sp1, rfl, v1, l1, p1, hl _, .inr ⟨ev, _, rfl, fl, rfl, pk, rfl⟩⟩
      | panic =>
        exact ⟨_, _, _, [], sp1, rfl, v1, l1, p1, hl _, .inr ⟨ev, _, rfl, fl, rfl, pk, rfl⟩⟩
  | err e => exact ⟨_, _, _, _, _, rfl, v1, l1, p1, lg1, .inl ⟨by simp, fl, pk⟩⟩
  | unwound => exact ⟨_, _, _, _, _, rfl, v1, l1, p1, lg1, .inl ⟨by simp, fl, pk⟩⟩
  | pending => exact ⟨_, _, _, _, _, rfl, v1, l1, p1, lg1, .inl ⟨by simp, fl, pk⟩⟩

end Vmap
