import Verif.Proofs.BufWriter
import Verif.Props.BufReader
/-
Property theorems C58–C67: `BufWriter` over an arbitrary inner writer `W`.

`W.spy` is the same writer, keeping in its state a list of all calls made on it.  `fuel` bounds
the rounds of the flush loop; every theorem holds for every `fuel`, and `C62_flush_terminates`
says how much suffices.
-/
namespace Vmap
open Spec Kernel
variable {σ : Type}

/-! ### Conservation -/

theorem accepted_asOut (data : List Byte) (r : WriteResp) :
    WrOp.accepted (.write data) (asOut r) = (WriteEvent.write data r).bytes := by
  cases r <;> rfl

theorem Pre.split {fuel cap : Nat} {q q' : List Byte} {p p' : Bool} {len : Nat}
    {ev : List WriteEvent} (h : Pre fuel cap q p len ev q' p') : q = received ev ++ q' := by
  cases h with
  | fits => simp [received]
  | flushed _ fl => exact fl.split

theorem DidWrite.perm {fuel cap : Nat} {q q' : List Byte} {p p' : Bool} {data : List Byte}
    {ev : List WriteEvent} {x : Out Nat} (h : DidWrite fuel cap q p data ev q' p' x) :
    (received ev ++ q').Perm (q ++ WrOp.accepted (.write data) x) := by
  cases h with
  | stopped long fl bad =>
    rw [fl.split]
    rename_i y
    cases y <;> first | exact absurd rfl bad | simp [asNat, WrOp.accepted]
  | direct r pre big =>
    rw [pre.split, received_append, received_one, accepted_asOut, List.append_assoc,
      List.append_assoc]
    exact List.Perm.append_left _ List.perm_append_comm
  | buffered pre small =>
    rw [pre.split]
    simp [WrOp.accepted]

theorem DidWrite.order {fuel cap : Nat} {q q' : List Byte} {p p' : Bool} {data : List Byte}
    {ev : List WriteEvent} {x : Out Nat} (h : DidWrite fuel cap q p data ev q' p' x)
    (nofit : data.length = cap - q.length → q = []) :
    received ev ++ q' = q ++ WrOp.accepted (.write data) x := by
  cases h with
  | stopped long fl bad =>
    rw [fl.split]
    rename_i y
    cases y <;> first | exact absurd rfl bad | simp [asNat, WrOp.accepted]
  | direct r pre big =>
    have hs := pre.split
    have hq' : q' = [] := by
      cases pre with
      | fits short => exact nofit (by omega)
      | flushed => rfl
    rw [hs, received_append, received_one, accepted_asOut, hq']
    simp
  | buffered pre small =>
    rw [pre.split]
    simp [WrOp.accepted]

theorem DidWrite.last {fuel cap : Nat} {q q' : List Byte} {p p' : Bool} {data : List Byte}
    {ev : List WriteEvent} {x : Out Nat} (h : DidWrite fuel cap q p data ev q' p' x)
    (log : List WriteEvent) (hp : p = true ↔ lastWrite log = some .panic) :
    p' = true ↔ lastWrite (log ++ ev) = some .panic := by
  have hpre : ∀ {ev q' p' len}, Pre fuel cap q p len ev q' p' →
      (p' = true ↔ lastWrite (log ++ ev) = some .panic) := by
    intro ev q' p' len hh
    cases hh with
    | fits => simpa using hp
    | flushed _ fl => exact fl.last log p hp
  cases h with
  | stopped long fl bad => exact fl.last log p hp
  | direct r pre big =>
    rw [← List.append_assoc, lastWrite_write]; simp
  | buffered pre small => exact hpre pre

/-- One call: it never fails in the crate's own code, and it conserves the bytes. -/
theorem wr_step (W : Writer σ) {t : Target} {k : Kernel} {b : BufWriter (σ × List WriteEvent)}
    {n : Nat} {q sp : List Byte} (h : View t k b.buf n q sp)
    (hb : n + b.buf.len < posBound t b.buf.len) (fuel : Nat) (op : WrOp) :
    ∃ k' b' x ev n' q' sp', b.exec W.spy t fuel k op = .ok ((k', b'), x) ∧
      View t k' b'.buf n' q' sp' ∧ n' ≤ n + b.buf.len ∧ b'.buf.len = b.buf.len ∧
      b'.inner.2 = b.inner.2 ++ ev ∧
      (received ev ++ q').Perm (q ++ op.accepted x) ∧
      ((∀ data, op = .write data → data.length = sp.length → q = []) →
        received ev ++ q' = q ++ op.accepted x) ∧
      ((b.panicked = true ↔ lastWrite b.inner.2 = some .panic) →
        (b'.panicked = true ↔ lastWrite b'.inner.2 = some .panic)) := by
  have hl := h.len
  cases op with
  | write data =>
    obtain ⟨k', b', x, ev, n', q', sp', e, v, hn, l, -, lg, dw⟩ := write_view W h hb fuel data
    simp only [BufWriter.exec, e, bind, Except.bind, pure, Except.pure]
    refine ⟨k', b', x, ev, n', q', sp', rfl, v, hn, l, lg, dw.perm, ?_, ?_⟩
    · intro nf
      exact dw.order (fun hd => nf data rfl (by omega))
    · intro hp
      rw [lg]
      exact dw.last _ hp
  | flush =>
    obtain ⟨b', x, ev, q', sp', e, v, l, -, lg, hc⟩ := bw_flush_view W h fuel
    simp only [BufWriter.exec, e, bind, Except.bind, pure, Except.pure]
    have hsplit : received ev ++ q' = q ++ [] := by
      rcases hc with ⟨-, fl, -⟩ | ⟨ev1, r, h1, fl, h2, -⟩
      · rw [List.append_nil]; exact fl.split.symm
      · rw [h1, h2, received_append, received_one, fl.split]; simp [WriteEvent.bytes]
    have hlast : (b.panicked = true ↔ lastWrite b.inner.2 = some .panic) →
        (b'.panicked = true ↔ lastWrite b'.inner.2 = some .panic) := by
      intro hp
      rcases hc with ⟨-, fl, pk⟩ | ⟨ev1, r, h1, fl, h2, pk, -⟩
      · rw [lg, pk]; exact fl.last _ _ hp
      · rw [lg, h1, ← List.append_assoc, lastWrite_flush, pk]; exact fl.last _ _ hp
    exact ⟨k, b', _, ev, n, q', sp', rfl, v, by omega, l, lg, List.Perm.of_eq hsplit,
      fun _ => hsplit, hlast⟩

theorem wr_run (W : Writer σ) {t : Target} (fuel : Nat) : ∀ (ops : List WrOp) {k : Kernel}
    {b : BufWriter (σ × List WriteEvent)} {n : Nat} {q sp : List Byte}, View t k b.buf n q sp →
    n + ops.length * b.buf.len < posBound t b.buf.len →
    ∃ k' b' acc ev n' q' sp', b.execAll W.spy t fuel k ops = .ok ((k', b'), acc) ∧
      View t k' b'.buf n' q' sp' ∧ b'.buf.len = b.buf.len ∧
      b'.inner.2 = b.inner.2 ++ ev ∧ (received ev ++ q').Perm (q ++ acc) ∧
      (b.NoExactFit W.spy t fuel k ops → received ev ++ q' = q ++ acc) ∧
      ((b.panicked = true ↔ lastWrite b.inner.2 = some .panic) →
        (b'.panicked = true ↔ lastWrite b'.inner.2 = some .panic))
  | [], k, b, n, q, sp, h, _ =>
    ⟨k, b, [], [], n, q, sp, rfl, h, rfl, by simp, by simp [received], by simp [received],
      fun hp => hp⟩
  | op :: ops, k, b, n, q, sp, h, hb => by
    rw [List.length_cons, Nat.add_mul, Nat.one_mul] at hb
    obtain ⟨k1, b1, x, ev1, n1, q1, sp1, e1, v1, hn1, l1, lg1, pm1, or1, pk1⟩ :=
      wr_step W h (by omega) fuel op
    simp only [BufWriter.execAll, e1, bind, Except.bind]
    by_cases hx : x = .pending
    · rw [if_pos hx]
      have ha : op.accepted x = [] := by subst hx; cases op <;> rfl
      rw [ha] at pm1 or1
      exact ⟨k1, b1, [], ev1, n1, q1, sp1, rfl, v1, l1, lg1, pm1, fun hnf =>
        or1 (fun data ho hd => hnf.1 data q sp.length ho h.readSlice h.writeLen hd), pk1⟩
    · rw [if_neg hx]
      obtain ⟨k2, b2, a2, ev2, n2, q2, sp2, e2, v2, l2, lg2, pm2, or2, pk2⟩ :=
        wr_run W fuel ops v1 (by rw [l1]; omega)
      simp only [e2, pure, Except.pure]
      refine ⟨k2, b2, op.accepted x ++ a2, ev1 ++ ev2, n2, q2, sp2, rfl, v2, by rw [l2, l1],
        by rw [lg2, lg1, List.append_assoc], ?_, ?_, fun hp => pk2 (pk1 hp)⟩
      · rw [received_append, List.append_assoc]
        refine (List.Perm.append_left _ pm2).trans ?_
        rw [← List.append_assoc, ← List.append_assoc]
        exact List.Perm.append_right _ pm1
      · intro hnf
        have hn := or2 (hnf.2 _ _ _ e1)
        have ho := or1 (fun data ho hd => hnf.1 data q sp.length ho h.readSlice h.writeLen hd)
        rw [received_append, List.append_assoc, hn, ← List.append_assoc, ho, List.append_assoc]

theorem bw_new {t : Target} {k0 k : Kernel} (wf : Wf t k0) {capacity : Nat}
    (hc : RingHint t k0 capacity) {s0 : σ} {b : BufWriter (σ × List WriteEvent)}
    (hr : BufWriter.new t k0 (s0, []) capacity = .ok (k, .ok b)) :
    View t k b.buf 0 [] (List.replicate b.buf.len 0) ∧ b.inner = (s0, []) ∧
      b.panicked = false := by
  simp only [BufWriter.new, bind, Except.bind] at hr
  cases hn : Ring.make t k0 capacity with
  | error f => rw [hn] at hr; cases hr
  | ok x =>
    obtain ⟨k1, r⟩ := x
    rw [hn] at hr
    cases r with
    | error e => cases hr
    | ok r =>
      simp only [pure, Except.pure, Except.ok.injEq, Prod.mk.injEq] at hr
      obtain ⟨h1, h2⟩ := hr
      subst h1 h2
      obtain ⟨at0, o, rep, -, -⟩ := ringRep_make wf hc hn
      exact ⟨⟨at0, o, rep⟩, rfl, rfl⟩

/-! ### C59, C67, C65 -/

/-- C59, C67: after `BufWriter::new`, for every writer (honest or not) and every history, no call
panics or faults in the crate's code, the bytes received by the inner writer and the buffered
ones are together a permutation of the accepted ones, and at most the capacity is buffered. -/
theorem C59_C67_bufwriter_conserves (W : Writer σ) (t : Target) (fuel : Nat) (k0 k : Kernel)
    (wf : Wf t k0) (capacity : Nat) (hc : RingHint t k0 capacity) (s0 : σ)
    (b : BufWriter (σ × List WriteEvent))
    (hr : BufWriter.new t k0 (s0, []) capacity = .ok (k, .ok b)) (ops : List WrOp)
    (below : ops.length * SeqWrite.writeCapacity b.buf <
      posBound t (SeqWrite.writeCapacity b.buf)) :
    ∃ k' b' acc q, b.execAll W.spy t fuel k ops = .ok ((k', b'), acc) ∧
      b'.buffered t k' = .ok q ∧ (received b'.inner.2 ++ q).Perm acc ∧
      q.length ≤ SeqWrite.writeCapacity b.buf := by
  obtain ⟨v, hi, -⟩ := bw_new wf hc hr
  obtain ⟨k', b', acc, ev, n', q', sp', e, v', l, lg, pm, -, -⟩ := wr_run W fuel ops v
    (by rw [Nat.zero_add]; exact below)
  have hl := v'.len
  refine ⟨k', b', acc, q', e, v'.readSlice, ?_, by simp only [SeqWrite.writeCapacity]; omega⟩
  rw [lg, hi]
  simpa using pm

/-- C58 holds for histories in which no write exactly fills the free space while something is
buffered.

Full statement (false, see `C58_order_false`): the same without `nofit`. -/
theorem C58_order_partial (W : Writer σ) (t : Target) (fuel : Nat) (k0 k : Kernel)
    (wf : Wf t k0) (capacity : Nat) (hc : RingHint t k0 capacity) (s0 : σ)
    (b : BufWriter (σ × List WriteEvent))
    (hr : BufWriter.new t k0 (s0, []) capacity = .ok (k, .ok b)) (ops : List WrOp)
    (below : ops.length * SeqWrite.writeCapacity b.buf <
      posBound t (SeqWrite.writeCapacity b.buf))
    (nofit : b.NoExactFit W.spy t fuel k ops) :
    ∃ k' b' acc q, b.execAll W.spy t fuel k ops = .ok ((k', b'), acc) ∧
      b'.buffered t k' = .ok q ∧ received b'.inner.2 ++ q = acc := by
  obtain ⟨v, hi, -⟩ := bw_new wf hc hr
  obtain ⟨k', b', acc, ev, n', q', sp', e, v', l, lg, -, or, -⟩ := wr_run W fuel ops v
    (by rw [Nat.zero_add]; exact below)
  refine ⟨k', b', acc, q', e, v'.readSlice, ?_⟩
  rw [lg, hi]
  simpa using or nofit

/-- C65: after any history, also with panics of the inner writer at any call, `into_parts`
gives the ring as `Ok` exactly if the most recent inner write did not panic, and the ring holds
the buffered bytes. -/
theorem C65_into_parts (W : Writer σ) (t : Target) (fuel : Nat) (k0 k : Kernel)
    (wf : Wf t k0) (capacity : Nat) (hc : RingHint t k0 capacity) (s0 : σ)
    (b : BufWriter (σ × List WriteEvent))
    (hr : BufWriter.new t k0 (s0, []) capacity = .ok (k, .ok b)) (ops : List WrOp)
    (below : ops.length * SeqWrite.writeCapacity b.buf <
      posBound t (SeqWrite.writeCapacity b.buf)) :
    ∃ k' b' acc q inner isErr ring n, b.execAll W.spy t fuel k ops = .ok ((k', b'), acc) ∧
      b'.buffered t k' = .ok q ∧ b'.intoParts = (inner, isErr, ring) ∧ inner = b'.inner ∧
      (isErr = true ↔ lastWrite inner.2 = some .panic) ∧
      RingAt t k' ring n ∧ ring.fillBuf t k' = .ok q := by
  obtain ⟨v, hi, hp⟩ := bw_new wf hc hr
  obtain ⟨k', b', acc, ev, n', q', sp', e, v', l, lg, -, -, pk⟩ := wr_run W fuel ops v
    (by rw [Nat.zero_add]; exact below)
  exact ⟨k', b', acc, q', _, _, _, n', e, v'.readSlice, rfl, rfl,
    pk (by rw [hp, hi]; simp [lastWrite]), v'.at_, v'.fillBuf⟩

/-- A writer that accepts everything. -/
def sinkWriter : Writer Unit where
  write _ data := ((), .ok data.length)
  flush _ := ((), .ok)

theorem demo_bufwriter (s0 : σ) : ∃ k, ∃ b : BufWriter (σ × List WriteEvent),
    BufWriter.new ⟨.w64, true⟩ (demo 0) (s0, []) 5000 = .ok (k, .ok b) ∧
    SeqWrite.writeCapacity b.buf = 8192 := ⟨_, _, rfl, rfl⟩

example : Wf ⟨.w64, true⟩ (demo 0) ∧
    ∃ k, ∃ b : BufWriter (Nat × List WriteEvent),
    BufWriter.new ⟨.w64, true⟩ (demo 0) (0, []) 5000 = .ok (k, .ok b) ∧
    [WrOp.write [1], .flush, .write []].length * SeqWrite.writeCapacity b.buf <
      posBound ⟨.w64, true⟩ (SeqWrite.writeCapacity b.buf) := by
  refine ⟨demo_wf 0, ?_⟩
  obtain ⟨k, b, e, hl⟩ := demo_bufwriter (σ := Nat) 0
  refine ⟨k, b, e, ?_⟩
  rw [hl]; simp [posBound, Target.lim, Width.bits, lim64]

-- a history that satisfies `nofit`
example (k : Kernel) (b : BufWriter (Unit × List WriteEvent))
    (e : BufWriter.new ⟨.w64, true⟩ (demo 0) ((), []) 5000 = .ok (k, .ok b)) :
    b.NoExactFit sinkWriter.spy ⟨.w64, true⟩ 9 k [.write [1, 2, 3], .flush] := by
  have hc : RingHint ⟨.w64, true⟩ (demo 0) 5000 := ⟨by simp [Target.lim, Width.bits], fun h => by cases h⟩
  obtain ⟨v, -, -⟩ := bw_new (demo_wf 0) hc e
  refine ⟨?_, fun _ _ _ _ => ⟨?_, fun _ _ _ _ => trivial⟩⟩
  · intro data q w _ hq _ _
    rw [BufWriter.buffered, v.readSlice] at hq
    injection hq with hq
    exact hq.symm
  · intro data q w h
    cases h

/-! ### C58: the order breaks at an exact fit -/

/-- C58, the fault in general: from every reachable state with something buffered, a write that
exactly fills the free space goes to the inner writer at once, before the buffered bytes. -/
theorem C58_exact_fit_overtakes (W : Writer σ) (t : Target) (fuel : Nat) (k : Kernel)
    (b : BufWriter (σ × List WriteEvent)) (n : Nat) (h : RingAt t k b.buf n) (q : List Byte)
    (hq : b.buffered t k = .ok q)
    (below : n + SeqWrite.writeCapacity b.buf < posBound t (SeqWrite.writeCapacity b.buf))
    (data : List Byte) (fit : q.length + data.length = SeqWrite.writeCapacity b.buf) :
    ∃ b' x r, b.write W.spy t fuel k data = .ok (k, b', x) ∧
      b'.inner.2 = b.inner.2 ++ [.write data r] ∧ b'.buffered t k = .ok q := by
  obtain ⟨q', sp, v⟩ := h.view
  rw [BufWriter.buffered, v.readSlice] at hq
  injection hq with hq
  subst hq
  have hl := v.len
  simp only [SeqWrite.writeCapacity] at fit
  simp only [BufWriter.write, v.writeLen, bind, Except.bind]
  rw [if_neg (by omega)]
  obtain ⟨k', b', x, e, l2, p2, hc⟩ := writeRest_view W v below data
  rcases hc with ⟨c1, r, hx, hk, hbuf, hlog, hp⟩ | ⟨c1, _⟩
  · subst hk
    exact ⟨b', x, r, e, hlog, by rw [BufWriter.buffered, hbuf]; exact v.readSlice⟩
  · omega

/-- C58 is false: with a capacity of 8192, `write(&[1])`, then `write(&[2; 8191])` over a writer
that accepts everything: the inner writer receives the 2s first. -/
theorem C58_order_false : ¬ ∀ (W : Writer Unit) (t : Target) (fuel : Nat) (k0 k : Kernel)
    (_ : Wf t k0) (capacity : Nat) (_ : RingHint t k0 capacity) (s0 : Unit)
    (b : BufWriter (Unit × List WriteEvent))
    (_ : BufWriter.new t k0 (s0, []) capacity = .ok (k, .ok b)) (ops : List WrOp)
    (_ : ops.length * SeqWrite.writeCapacity b.buf <
      posBound t (SeqWrite.writeCapacity b.buf)),
    ∃ k' b' acc q, b.execAll W.spy t fuel k ops = .ok ((k', b'), acc) ∧
      b'.buffered t k' = .ok q ∧ received b'.inner.2 ++ q = acc := by
  intro all
  obtain ⟨k, b, hnew, hcap⟩ := demo_bufwriter (σ := Unit) ()
  have hc : RingHint ⟨.w64, true⟩ (demo 0) 5000 := ⟨by simp [Target.lim, Width.bits], fun h => by cases h⟩
  obtain ⟨v, hi, hp⟩ := bw_new (demo_wf 0) hc hnew
  have hpb : ∀ m, m < 100000 → m < posBound ⟨.w64, true⟩ b.buf.len := by
    intro m hm; unfold posBound; split <;> simp only [lim64, Target.lim, Width.bits] <;> omega
  simp only [SeqWrite.writeCapacity] at hcap
  generalize hdata : List.replicate 8191 (2 : Byte) = data
  have hdl : data.length = 8191 := by rw [← hdata]; exact List.length_replicate
  have hd0 : data.head? = some 2 := by rw [← hdata]; rfl
  obtain ⟨k', b', acc, q, e, hq, hrec⟩ := all sinkWriter ⟨.w64, true⟩ 9 (demo 0) k (demo_wf 0)
    5000 hc () b hnew [.write [1], .write data] (hpb _ (by
      simp only [SeqWrite.writeCapacity, hcap, List.length_cons, List.length_nil]; omega))
  -- first write
  obtain ⟨k1, b1, x1, ev1, n1, q1, sp1, e1, v1, hn1, l1, -, lg1, dw1⟩ :=
    write_view sinkWriter v (hpb _ (by omega)) 9 [1]
  have f1 : ev1 = [] ∧ q1 = [1] ∧ x1 = .ok 1 := by
    rw [hcap] at dw1
    generalize b1.panicked = p1 at dw1
    cases dw1 with
    | stopped long => simp at long
    | direct r pre big =>
      cases pre with
      | fits short => simp at big
      | flushed long => simp at long
    | buffered pre small =>
      cases pre with
      | fits short => exact ⟨rfl, rfl, rfl⟩
      | flushed long => simp at long
  obtain ⟨f1, f2, f3⟩ := f1
  subst f1 f2 f3
  -- second write
  obtain ⟨k2, b2, x2, ev2, n2, q2, sp2, e2, v2, hn2, l2, -, lg2, dw2⟩ :=
    write_view sinkWriter v1 (by rw [l1]; exact hpb _ (by omega)) 9 data
  have f2 : q2 = [1] ∧ ∃ r, ev2 = [.write data r] ∧ x2 = asOut r := by
    rw [l1, hcap] at dw2
    generalize b2.panicked = p2 at dw2
    cases dw2 with
    | stopped long => rw [hdl] at long; simp at long
    | direct r pre big =>
      cases pre with
      | fits short => exact ⟨rfl, r, rfl, rfl⟩
      | flushed long => rw [hdl] at long; simp at long
    | buffered pre small =>
      cases pre with
      | fits short => rw [hdl] at small; simp at small
      | flushed long => rw [hdl] at long; simp at long
  obtain ⟨f4, r, f5, f6⟩ := f2
  subst f4 f5 f6
  -- the answer of the sink
  have hr : r = .ok data.length := by
    have hl1 := v1.len
    have e3 := e2
    simp only [BufWriter.write, v1.writeLen, bind, Except.bind, BufWriter.writeRest] at e3
    simp only [List.length_cons, List.length_nil] at hl1
    rw [if_neg (by omega), if_pos (by omega)] at e3
    simp only [Writer.spy, sinkWriter, pure, Except.pure, Except.ok.injEq, Prod.mk.injEq] at e3
    obtain ⟨-, -, e4⟩ := e3
    cases r with
    | ok m => injection e4 with e4; rw [e4]
    | err e => cases e4
    | panic => cases e4
  subst hr
  simp only [BufWriter.execAll, BufWriter.exec, e1, e2, asOut, bind, Except.bind, pure,
    Except.pure, reduceCtorEq, if_false, Except.ok.injEq, Prod.mk.injEq] at e
  obtain ⟨⟨e3, e4⟩, e5⟩ := e
  subst e3 e4 e5
  rw [lg2, lg1, hi] at hrec
  rw [BufWriter.buffered, v2.readSlice] at hq
  injection hq with hq
  subst hq
  have := congrArg List.head? hrec
  simp [received, WriteEvent.bytes, WrOp.accepted, hd0] at this

/-! ### C60–C62 -/

/-- C60, C61, C62: the calls that `flush()` makes on the inner writer, what stays in the buffer,
and the result.  `Flush` (in the specification) lists the only possible courses. -/
theorem C60_C61_C62_flush (W : Writer σ) (t : Target) (fuel : Nat) (k : Kernel)
    (b : BufWriter (σ × List WriteEvent)) (n : Nat) (h : RingAt t k b.buf n) (q : List Byte)
    (hq : b.buffered t k = .ok q) :
    ∃ b' x ev q', b.flush W.spy t fuel k = .ok (b', x) ∧ RingAt t k b'.buf n ∧
      b'.buffered t k = .ok q' ∧ b'.inner.2 = b.inner.2 ++ ev ∧
      ((x ≠ .ok () ∧ Flush fuel q ev q' x) ∨
       (∃ ev1 r, ev = ev1 ++ [.flush r] ∧ Flush fuel q ev1 [] (.ok ()) ∧ q' = [] ∧
          x = match r with | .ok => .ok () | .err e => .err e | .panic => .unwound)) := by
  obtain ⟨q', sp, v⟩ := h.view
  rw [BufWriter.buffered, v.readSlice] at hq
  injection hq with hq
  subst hq
  obtain ⟨b', x, ev, q1, sp', e, v', l, -, lg, hc⟩ := bw_flush_view W v fuel
  refine ⟨b', x, ev, q1, e, v'.at_, v'.readSlice, lg, ?_⟩
  rcases hc with ⟨h1, h2, -⟩ | ⟨ev1, r, h1, h2, h3, -, h4⟩
  · exact .inl ⟨h1, h2⟩
  · exact .inr ⟨ev1, r, h1, h2, h3, h4⟩

/-- C60: if `flush()` returns `Ok`, nothing is buffered, the inner writer received exactly the
buffered bytes, and its `flush` was the last call made. -/
theorem C60_flush_ok (W : Writer σ) (t : Target) (fuel : Nat) (k : Kernel)
    (b b' : BufWriter (σ × List WriteEvent)) (n : Nat) (h : RingAt t k b.buf n) (q : List Byte)
    (hq : b.buffered t k = .ok q) (run : b.flush W.spy t fuel k = .ok (b', .ok ())) :
    b'.buffered t k = .ok [] ∧ received b'.inner.2 = received b.inner.2 ++ q ∧
      ∃ before, b'.inner.2 = before ++ [.flush .ok] := by
  obtain ⟨b1, x, ev, q', e, -, hb, lg, hc⟩ := C60_C61_C62_flush W t fuel k b n h q hq
  rw [run] at e
  simp only [Except.ok.injEq, Prod.mk.injEq] at e
  obtain ⟨e1, e2⟩ := e
  subst e1 e2
  rcases hc with ⟨h1, -⟩ | ⟨ev1, r, h1, h2, h3, h4⟩
  · exact absurd rfl h1
  · cases r with
    | ok =>
      refine ⟨by rw [hb, h3], ?_, _, by rw [lg, h1, ← List.append_assoc]⟩
      rw [lg, h1, received_append, received_append, received_one]
      have := h2.split
      rw [this]
      simp [WriteEvent.bytes]
    | err e => cases h4
    | panic => cases h4

/-- C61: however `flush()` ends, the inner writer received a prefix of the buffered bytes and
exactly the rest is still buffered. -/
theorem C61_flush_keeps_suffix (W : Writer σ) (t : Target) (fuel : Nat) (k : Kernel)
    (b b' : BufWriter (σ × List WriteEvent)) (n : Nat) (h : RingAt t k b.buf n) (q : List Byte)
    (x : Out Unit)
    (hq : b.buffered t k = .ok q) (run : b.flush W.spy t fuel k = .ok (b', x)) :
    ∃ sent rest, q = sent ++ rest ∧ received b'.inner.2 = received b.inner.2 ++ sent ∧
      b'.buffered t k = .ok rest ∧ RingAt t k b'.buf n := by
  obtain ⟨b1, x1, ev, q', e, ra, hb, lg, hc⟩ := C60_C61_C62_flush W t fuel k b n h q hq
  rw [run] at e
  simp only [Except.ok.injEq, Prod.mk.injEq] at e
  obtain ⟨e1, e2⟩ := e
  subst e1 e2
  refine ⟨received ev, q', ?_, by rw [lg, received_append], hb, ra⟩
  rcases hc with ⟨-, h2⟩ | ⟨ev1, r, h1, h2, h3, -⟩
  · exact h2.split
  · rw [h1, h3, received_append, received_one, h2.split]; simp [WriteEvent.bytes]

/-- C62: an error of `flush()` is what the inner writer's last call returned — `WriteZero` for
`Ok(0)`, and `Interrupted` only if its own `flush` said so (with nothing left in the buffer). -/
theorem C62_flush_error (W : Writer σ) (t : Target) (fuel : Nat) (k : Kernel)
    (b b' : BufWriter (σ × List WriteEvent)) (n : Nat) (h : RingAt t k b.buf n) (q : List Byte)
    (e : IoError)
    (hq : b.buffered t k = .ok q) (run : b.flush W.spy t fuel k = .ok (b', .err e)) :
    ∃ before last rest, b'.inner.2 = before ++ [last] ∧ b'.buffered t k = .ok rest ∧
      ((last = .write rest (.ok 0) ∧ rest ≠ [] ∧ e = .ofKind .writeZero) ∨
       (last = .write rest (.err e) ∧ rest ≠ [] ∧ e.kind ≠ .interrupted) ∨
       (last = .flush (.err e) ∧ rest = [])) := by
  obtain ⟨b1, x1, ev, q', e1, ra, hb, lg, hc⟩ := C60_C61_C62_flush W t fuel k b n h q hq
  rw [run] at e1
  simp only [Except.ok.injEq, Prod.mk.injEq] at e1
  obtain ⟨e2, e3⟩ := e1
  subst e2 e3
  rcases hc with ⟨-, h2⟩ | ⟨ev1, r, h1, h2, h3, h4⟩
  · generalize hx : Out.err e = x at h2
    cases h2 with
    | done => cases hx
    | running => cases hx
    | stopped r part left why =>
      refine ⟨_, _, q', by rw [lg, ← List.append_assoc], hb, ?_⟩
      cases r with
      | ok m =>
        simp only [stopsWith] at why
        rw [← hx] at why
        obtain ⟨w1, w2⟩ := why
        injection w2 with w2
        subst w1
        exact .inl ⟨rfl, left, w2⟩
      | err e' =>
        simp only [stopsWith] at why
        rw [← hx] at why
        obtain ⟨w1, w2⟩ := why
        injection w2 with w2
        subst w2
        exact .inr (.inl ⟨rfl, left, w1⟩)
      | panic =>
        simp only [stopsWith] at why
        rw [← hx] at why
        cases why
  · refine ⟨_, _, q', by rw [lg, h1, ← List.append_assoc], hb, .inr (.inr ?_)⟩
    cases r with
    | ok => cases h4
    | err e' => injection h4 with h4; subst h4; exact ⟨rfl, h3⟩
    | panic => cases h4

/-- C62: the flush loop is still running only if it has made `fuel` rounds, and that takes at least
`fuel - q.length` answers `Interrupted`: with more rounds allowed than buffered bytes plus
interruptions, `flush` ends. -/
theorem C62_flush_terminates (W : Writer σ) (t : Target) (fuel : Nat) (k : Kernel)
    (b b' : BufWriter (σ × List WriteEvent)) (n : Nat) (h : RingAt t k b.buf n) (q : List Byte)
    (hq : b.buffered t k = .ok q) (run : b.flush W.spy t fuel k = .ok (b', .pending)) :
    ∃ ev, b'.inner.2 = b.inner.2 ++ ev ∧ fuel ≤ q.length + refused ev ∧
      ∀ e ∈ ev, match e with
        | .write _ (.err e) => e.kind = .interrupted
        | .write _ (.ok m) => m ≠ 0
        | _ => False := by
  obtain ⟨b1, x1, ev, q', e1, ra, hb, lg, hc⟩ := C60_C61_C62_flush W t fuel k b n h q hq
  rw [run] at e1
  simp only [Except.ok.injEq, Prod.mk.injEq] at e1
  obtain ⟨e2, e3⟩ := e1
  subst e2 e3
  rcases hc with ⟨-, h2⟩ | ⟨ev1, r, h1, h2, h3, h4⟩
  · generalize hx : Out.pending = x at h2
    cases h2 with
    | done => cases hx
    | stopped r part left why => cases r <;> simp only [stopsWith] at why <;> simp_all
    | running part all =>
      refine ⟨ev, lg, by have := part.rounds; omega, ?_⟩
      clear lg hb run hx all hq
      induction part with
      | stop => simp
      | took m hm left rest ih =>
        intro e he
        rcases List.mem_cons.mp he with he | he
        · subst he; exact hm
        · exact ih e he
      | again er intr left rest ih =>
        intro e he
        rcases List.mem_cons.mp he with he | he
        · subst he; exact intr
        · exact ih e he
  · cases r <;> cases h4

/-- A reachable `BufWriter` with three bytes buffered, for the examples. -/
theorem demo_bufwriter_at (s : σ) : ∃ k, ∃ b : BufWriter (σ × List WriteEvent), ∃ n,
    RingAt ⟨.w64, true⟩ k b.buf n ∧ b.buffered ⟨.w64, true⟩ k = .ok [1, 2, 3] ∧
    SeqWrite.writeCapacity b.buf = 8192 ∧ b.panicked = false ∧ b.inner = (s, []) ∧
    n + SeqWrite.writeCapacity b.buf < posBound ⟨.w64, true⟩ (SeqWrite.writeCapacity b.buf) := by
  obtain ⟨k, r, h, hq, hl⟩ := demo_ring_8k
  refine ⟨k, .fromParts (s, []) r, 3, h, hq, hl, rfl, rfl, ?_⟩
  show 3 + SeqWrite.writeCapacity r < _
  simp only [BufWriter.fromParts]
  rw [hl]; simp [posBound, Target.lim, Width.bits, lim64]

/-- A writer that always fails with the given error. -/
def failWriter (e : IoError) : Writer Unit where
  write _ _ := ((), .err e)
  flush _ := ((), .ok)

-- a flush of three bytes that succeeds, one that fails, and one that runs forever
example : ∃ k, ∃ b b' : BufWriter (Unit × List WriteEvent), ∃ n,
    RingAt ⟨.w64, true⟩ k b.buf n ∧ b.buffered ⟨.w64, true⟩ k = .ok [1, 2, 3] ∧
    b.flush sinkWriter.spy ⟨.w64, true⟩ 9 k = .ok (b', .ok ()) := by
  obtain ⟨k, b, n, h, hq, -⟩ := demo_bufwriter_at (σ := Unit) ()
  obtain ⟨q, sp, v⟩ := h.view
  have hq' := v.readSlice
  rw [show readSliceBytes _ k b.buf _ = .ok [1, 2, 3] from hq] at hq'
  injection hq' with hq'
  subst hq'
  obtain ⟨b', x, ev, q', sp', e, -, -, -, -, hc⟩ := bw_flush_view sinkWriter v 9
  have hx : x = .ok () := by
    obtain ⟨r, e1, v1, -, -⟩ := v.consume 3
    have e2 : BufWriter.flushBuf sinkWriter.spy ⟨.w64, true⟩ k 9 b =
        .ok (⟨r, ((), b.inner.2 ++ [.write [1, 2, 3] (.ok 3)]), false⟩, .ok ()) := by
      rw [BufWriter.flushBuf]
      simp only [v.isEmpty_eq, BufWriter.buffered, v.readSlice, bind, Except.bind, sinkWriter,
        Writer.spy]
      simp only [List.length_cons, List.length_nil, Nat.reduceAdd, Nat.reduceBEq,
        Bool.false_eq_true, if_false, e1]
      rw [BufWriter.flushBuf]
      simp only [v1.isEmpty_eq, bind, Except.bind]
      rfl
    rw [BufWriter.flush, e2] at e
    simp only [bind, Except.bind, Writer.spy, sinkWriter, pure, Except.pure, Except.ok.injEq,
      Prod.mk.injEq] at e
    exact e.2.symm
  subst hx
  exact ⟨k, b, b', n, h, hq, e⟩

theorem failWriter_flush (e : IoError) (fuel : Nat) :
    ∃ k, ∃ b b' : BufWriter (Unit × List WriteEvent), ∃ n,
    RingAt ⟨.w64, true⟩ k b.buf n ∧ b.buffered ⟨.w64, true⟩ k = .ok [1, 2, 3] ∧
    b.flush (failWriter e).spy ⟨.w64, true⟩ fuel k =
      .ok (b', if fuel = 0 ∨ e.kind = .interrupted then .pending else .err e) := by
  obtain ⟨k, b, n, h, hq, -⟩ := demo_bufwriter_at (σ := Unit) ()
  obtain ⟨q, sp, v⟩ := h.view
  have hq' := v.readSlice
  rw [show readSliceBytes _ k b.buf _ = .ok [1, 2, 3] from hq] at hq'
  injection hq' with hq'
  subst hq'
  have : ∀ fuel, ∀ b : BufWriter (Unit × List WriteEvent), View ⟨.w64, true⟩ k b.buf n [1, 2, 3] sp →
      ∃ b', b.flushBuf (failWriter e).spy ⟨.w64, true⟩ k fuel =
      .ok (b', if fuel = 0 ∨ e.kind = .interrupted then .pending else .err e) := by
    intro fuel
    induction fuel with
    | zero => intro b v; exact ⟨b, by simp [BufWriter.flushBuf, pure, Except.pure]⟩
    | succ f ih =>
      intro b v
      simp only [BufWriter.flushBuf, v.isEmpty_eq, bind, Except.bind, BufWriter.buffered,
        v.readSlice]
      by_cases hi : e.kind = .interrupted
      · obtain ⟨b', e'⟩ := ih ⟨b.buf, ((), b.inner.2 ++ [.write [1, 2, 3] (.err e)]), false⟩ v
        refine ⟨b', ?_⟩
        simp [Writer.spy, failWriter, hi]
        simpa [hi, Writer.spy, failWriter] using e'
      · exact ⟨_, by simp [Writer.spy, failWriter, hi, pure, Except.pure]; rfl⟩
  obtain ⟨b', e'⟩ := this fuel b v
  refine ⟨k, b, b', n, h, hq, ?_⟩
  simp only [BufWriter.flush, e', bind, Except.bind]
  by_cases c : fuel = 0 ∨ e.kind = .interrupted
  · simp [c, pure, Except.pure]
  · simp [c, pure, Except.pure]

example : ∃ k, ∃ b b' : BufWriter (Unit × List WriteEvent), ∃ n e,
    RingAt ⟨.w64, true⟩ k b.buf n ∧ b.buffered ⟨.w64, true⟩ k = .ok [1, 2, 3] ∧
    b.flush (failWriter e).spy ⟨.w64, true⟩ 9 k = .ok (b', .err e) := by
  obtain ⟨k, b, b', n, h, hq, e⟩ := failWriter_flush (.ofKind .writeZero) 9
  exact ⟨k, b, b', n, _, h, hq, by simpa [IoError.ofKind] using e⟩

example : ∃ k, ∃ b b' : BufWriter (Unit × List WriteEvent), ∃ n e,
    RingAt ⟨.w64, true⟩ k b.buf n ∧ b.buffered ⟨.w64, true⟩ k = .ok [1, 2, 3] ∧
    b.flush (failWriter e).spy ⟨.w64, true⟩ 9 k = .ok (b', .pending) := by
  obtain ⟨k, b, b', n, h, hq, e⟩ := failWriter_flush (.ofKind .interrupted) 9
  exact ⟨k, b, b', n, _, h, hq, by simpa [IoError.ofKind] using e⟩

/-! ### C63, C64 -/

/-- C63: `into_inner` returns the writer only with all buffered bytes delivered (and the ring
unmapped); an error comes with a `BufWriter` holding exactly the undelivered bytes; if the inner
writer panics nothing is written after that and the ring is unmapped. -/
theorem C63_into_inner (W : Writer σ) (t : Target) (fuel : Nat) (k : Kernel)
    (b : BufWriter (σ × List WriteEvent)) (n : Nat) (h : RingAt t k b.buf n) (q : List Byte)
    (hq : b.buffered t k = .ok q) :
    ∃ k' res, b.intoInner W.spy t fuel k = .ok (k', res) ∧
      match res with
      | .ok inner => received inner.2 = received b.inner.2 ++ q ∧
          Released t k k' b.buf.ptr (SeqWrite.writeCapacity b.buf)
      | .err b' e => k' = k ∧ RingAt t k b'.buf n ∧ ∃ sent rest, rest ≠ [] ∧ q = sent ++ rest ∧
          received b'.inner.2 = received b.inner.2 ++ sent ∧ b'.buffered t k = .ok rest ∧
          b'.panicked = false ∧ e.kind ≠ .interrupted
      | .unwound inner => ∃ sent rest before, q = sent ++ rest ∧
          received inner.2 = received b.inner.2 ++ sent ∧
          inner.2 = before ++ [.write rest .panic] ∧
          Released t k k' b.buf.ptr (SeqWrite.writeCapacity b.buf)
      | .pending b' => k' = k ∧ ∃ ev, b'.inner.2 = b.inner.2 ++ ev ∧
          fuel ≤ q.length + refused ev := by
  obtain ⟨q', sp, v⟩ := h.view
  rw [BufWriter.buffered, v.readSlice] at hq
  injection hq with hq
  subst hq
  obtain ⟨b1, y, ev, q1, sp1, e1, v1, l1, p1, lg1, fl, pk⟩ := flush_view W fuel v
  simp only [BufWriter.intoInner, e1, bind, Except.bind]
  have hs := fl.split
  have hrec : received b1.inner.2 = received b.inner.2 ++ received ev := by
    rw [lg1, received_append]
  obtain ⟨k', e2, rel⟩ := C27_ring_drop t k b1.buf n v1.at_
  simp only [SeqWrite.writeCapacity] at rel ⊢
  rw [l1, p1] at rel
  generalize hx : y = x at fl
  cases fl with
  | done all =>
    subst hx
    simp only [BufWriter.intoParts, e2]
    refine ⟨k', _, rfl, ?_, rel⟩
    rw [hrec, hs, List.append_nil]
  | stopped r part left why =>
    cases r with
    | ok m =>
      simp only [stopsWith] at why
      obtain ⟨w1, w2⟩ := why
      subst w2 hx
      exact ⟨k, _, rfl, rfl, v1.at_, _, q1, left, hs, hrec, v1.readSlice,
        by rw [pk]; simp [flagAfter], by simp [IoError.ofKind]⟩
    | err er =>
      simp only [stopsWith] at why
      obtain ⟨w1, w2⟩ := why
      subst w2 hx
      exact ⟨k, _, rfl, rfl, v1.at_, _, q1, left, hs, hrec, v1.readSlice,
        by rw [pk]; simp [flagAfter], w1⟩
    | panic =>
      simp only [stopsWith] at why
      subst why hx
      have hp : b1.panicked = true := by rw [pk]; simp [flagAfter]
      simp only [BufWriter.drop, hp, if_true, e2, bind, Except.bind, pure, Except.pure]
      exact ⟨k', _, rfl, _, q1, _, hs, hrec, by rw [lg1, ← List.append_assoc], rel⟩
  | running part all =>
    subst hx
    exact ⟨k, _, rfl, rfl, ev, lg1, by have := part.rounds; omega⟩

/-- C64: dropping a `BufWriter` whose last inner write panicked writes nothing; otherwise it
flushes like `flush_buf` (ignoring errors).  The ring is unmapped in all cases, also when the
inner writer panics during the drop. -/
theorem C64_drop (W : Writer σ) (t : Target) (fuel : Nat) (k : Kernel)
    (b : BufWriter (σ × List WriteEvent)) (n : Nat) (h : RingAt t k b.buf n) (q : List Byte)
    (hq : b.buffered t k = .ok q) :
    ∃ k' inner x ev, b.drop W.spy t fuel k = .ok (k', inner, x) ∧
      inner.2 = b.inner.2 ++ ev ∧
      (x ≠ .pending → Released t k k' b.buf.ptr (SeqWrite.writeCapacity b.buf)) ∧
      (b.panicked = true → ev = [] ∧ x = .ok ()) ∧
      (b.panicked = false → ∃ q' y, Flush fuel q ev q' y ∧
        match y with
        | .ok _ => x = .ok ()
        | .err _ => x = .ok ()
        | .unwound => x = .unwound
        | .pending => x = .pending) := by
  obtain ⟨q', sp, v⟩ := h.view
  rw [BufWriter.buffered, v.readSlice] at hq
  injection hq with hq
  subst hq
  by_cases hp : b.panicked = true
  · obtain ⟨k', e2, rel⟩ := C27_ring_drop t k b.buf n h
    simp only [BufWriter.drop, hp, if_true, e2, bind, Except.bind, pure, Except.pure]
    exact ⟨k', _, _, [], rfl, by simp, fun _ => rel, fun _ => ⟨rfl, rfl⟩, by simp⟩
  · simp only [Bool.not_eq_true] at hp
    simp only [BufWriter.drop, hp, Bool.false_eq_true, if_false, bind, Except.bind]
    obtain ⟨b1, y, ev, q1, sp1, e1, v1, l1, p1, lg1, fl, pk⟩ := flush_view W fuel v
    obtain ⟨k', e2, rel⟩ := C27_ring_drop t k b1.buf n v1.at_
    simp only [SeqWrite.writeCapacity] at rel ⊢
    rw [l1, p1] at rel
    simp only [e1, e2]
    cases y with
    | ok u =>
      exact ⟨k', _, _, ev, rfl, lg1, fun _ => rel, by simp, fun _ => ⟨q1, _, fl, rfl⟩⟩
    | err e =>
      exact ⟨k', _, _, ev, rfl, lg1, fun _ => rel, by simp, fun _ => ⟨q1, _, fl, rfl⟩⟩
    | unwound =>
      exact ⟨k', _, _, ev, rfl, lg1, fun _ => rel, by simp, fun _ => ⟨q1, _, fl, rfl⟩⟩
    | pending =>
      exact ⟨k, _, _, ev, rfl, lg1, fun hx => absurd rfl hx, by simp,
        fun _ => ⟨q1, _, fl, rfl⟩⟩

/-- C64, taken apart: the ring obtained from `into_parts` is unmapped exactly when it is dropped
(by whoever holds it), and nothing is unmapped before. -/
theorem C64_into_parts_drop (t : Target) (k : Kernel)
    (b : BufWriter (σ × List WriteEvent)) (n : Nat) (h : RingAt t k b.buf n) :
    ∃ inner isErr ring k', b.intoParts = (inner, isErr, ring) ∧ RingAt t k ring n ∧
      inner = b.inner ∧ ring.drop t k = .ok k' ∧
      Released t k k' b.buf.ptr (SeqWrite.writeCapacity b.buf) := by
  obtain ⟨k', e, rel⟩ := C27_ring_drop t k b.buf n h
  exact ⟨_, _, _, k', rfl, h, rfl, e, rel⟩

/-- C73: `BufReader::into_inner` returns the inner reader as it was and unmaps the ring. -/
theorem C73_bufreader_into_inner (t : Target) (k : Kernel) (b : BufReader σ) (n : Nat)
    (h : RingAt t k b.buf n) :
    ∃ k', b.intoInner t k = .ok (k', b.inner) ∧
      Released t k k' b.buf.ptr (SeqWrite.writeCapacity b.buf) := by
  obtain ⟨k', e, rel⟩ := C27_ring_drop t k b.buf n h
  exact ⟨k', by simp only [BufReader.intoInner, e, bind, Except.bind, pure, Except.pure], rel⟩

example : ∃ k, ∃ b : BufWriter (Unit × List WriteEvent), ∃ n q, RingAt ⟨.w64, true⟩ k b.buf n ∧
    b.buffered ⟨.w64, true⟩ k = .ok q ∧ q ≠ [] ∧ b.panicked = false := by
  obtain ⟨k, b, n, h, hq, -, hp, -⟩ := demo_bufwriter_at (σ := Unit) ()
  exact ⟨k, b, n, _, h, hq, by simp, hp⟩

/-! ### C66 -/

/-- C66: `write(data)` from any reachable state.  `Ok(m)`: exactly the first `m` bytes were
accepted, and `m` is all of them or what the inner writer said of this very data.  `Err`,
a panic of the inner writer: none.  Data shorter than the free space is only buffered. -/
theorem C66_write (W : Writer σ) (t : Target) (fuel : Nat) (k : Kernel)
    (b : BufWriter (σ × List WriteEvent)) (n : Nat) (h : RingAt t k b.buf n) (q : List Byte)
    (hq : b.buffered t k = .ok q)
    (below : n + SeqWrite.writeCapacity b.buf < posBound t (SeqWrite.writeCapacity b.buf))
    (data : List Byte) :
    ∃ k' b' x n' q', b.write W.spy t fuel k data = .ok (k', b', x) ∧ RingAt t k' b'.buf n' ∧
      n' ≤ n + SeqWrite.writeCapacity b.buf ∧ b'.buffered t k' = .ok q' ∧
      (match x with
       | .ok m => (received b'.inner.2 ++ q').Perm (received b.inner.2 ++ q ++ data.take m) ∧
           (m = data.length ∨ ∃ before, b'.inner.2 = before ++ [.write data (.ok m)])
       | _ => received b'.inner.2 ++ q' = received b.inner.2 ++ q) ∧
      (q.length + data.length < SeqWrite.writeCapacity b.buf →
        b'.inner = b.inner ∧ x = .ok data.length ∧ q' = q ++ data) ∧
      (SeqWrite.writeCapacity b.buf < q.length + data.length →
        data.length < SeqWrite.writeCapacity b.buf → x = .ok data.length → q' = data ∧
        received b'.inner.2 = received b.inner.2 ++ q) := by
  obtain ⟨q0, sp, v⟩ := h.view
  rw [BufWriter.buffered, v.readSlice] at hq
  injection hq with hq
  subst hq
  have hl := v.len
  obtain ⟨k', b', x, ev, n', q', sp', e, v', hn, l, -, lg, dw⟩ := write_view W v below fuel data
  have hin : q0.length + data.length < b.buf.len → b'.inner = b.inner := by
    intro hs
    have e' := e
    simp only [BufWriter.write, v.writeLen, bind, Except.bind] at e'
    rw [if_neg (by omega)] at e'
    obtain ⟨k2, b2, x2, e2, -, -, hc⟩ := writeRest_view W v below data
    rw [e'] at e2
    simp only [Except.ok.injEq, Prod.mk.injEq] at e2
    obtain ⟨-, e3, -⟩ := e2
    rcases hc with ⟨c1, _⟩ | ⟨c1, -, hi, -⟩
    · omega
    · rw [e3]; exact hi
  refine ⟨k', b', x, n', q', e, v'.at_, hn, v'.readSlice, ?_, ?_, ?_⟩
  · have hp := dw.perm
    have hmain : ∀ m, x = .ok m → (received b'.inner.2 ++ q').Perm
        (received b.inner.2 ++ q0 ++ data.take m) := by
      intro m hx
      subst hx
      rw [lg, received_append, List.append_assoc, List.append_assoc]
      exact List.Perm.append_left _ hp
    generalize b'.panicked = p' at dw
    cases dw with
    | stopped long fl bad =>
      have hs := fl.split
      rename_i y
      have : received b'.inner.2 ++ q' = received b.inner.2 ++ q0 := by
        rw [lg, received_append, List.append_assoc, hs]
      cases y <;> first | exact absurd rfl bad | exact this
    | direct r pre big =>
      have hs := pre.split
      cases r with
      | ok m =>
        exact ⟨hmain m rfl, .inr ⟨_, by rw [lg, ← List.append_assoc]⟩⟩
      | err e =>
        rw [lg, received_append, received_append, received_one, hs]
        simp [asOut, WriteEvent.bytes]
      | panic =>
        rw [lg, received_append, received_append, received_one, hs]
        simp [asOut, WriteEvent.bytes]
    | buffered pre small => exact ⟨hmain _ rfl, .inl rfl⟩
  · intro hs
    simp only [SeqWrite.writeCapacity] at hs
    refine ⟨hin hs, ?_⟩
    generalize b'.panicked = p' at dw
    cases dw with
    | stopped long => omega
    | direct r pre big =>
      cases pre with
      | fits short => omega
      | flushed long => omega
    | buffered pre small =>
      cases pre with
      | fits short => exact ⟨rfl, rfl⟩
      | flushed long => omega
  · intro hs hs2 hx
    simp only [SeqWrite.writeCapacity] at hs hs2
    generalize b'.panicked = p' at dw
    cases dw with
    | stopped long fl bad =>
      rename_i y
      cases y <;> first | exact absurd rfl bad | cases hx
    | direct r pre big =>
      cases pre with
      | fits short => omega
      | flushed long => simp at big; omega
    | buffered pre small =>
      have hsp := pre.split
      cases pre with
      | fits short => omega
      | flushed long =>
        rw [lg, received_append, hsp]; simp

example : ∃ k, ∃ b : BufWriter (Unit × List WriteEvent), ∃ n q, RingAt ⟨.w64, true⟩ k b.buf n ∧
    b.buffered ⟨.w64, true⟩ k = .ok q ∧ q ≠ [] ∧
    n + SeqWrite.writeCapacity b.buf < posBound ⟨.w64, true⟩ (SeqWrite.writeCapacity b.buf) ∧
    q.length + [(7 : Byte)].length < SeqWrite.writeCapacity b.buf := by
  obtain ⟨k, b, n, h, hq, hl, -, -, hb⟩ := demo_bufwriter_at (σ := Unit) ()
  exact ⟨k, b, n, _, h, hq, by simp, hb, by rw [hl]; simp⟩

end Vmap
