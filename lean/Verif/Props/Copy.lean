import Verif.Proofs.Copy
import Verif.Props.BufferStd
import Verif.Props.BufWorld
/-
Property theorems C127: `std::io::copy` from a `BufReader` to a `BufWriter`.
-/
namespace Vmap
open Kernel Spec
variable {σ τ : Type}

/-- C127: a program in any reachable state copies from a `BufReader` (its ring is handle `i`, with `qr`
buffered) to a `BufWriter` (handle `j`, with `qw` buffered), over any honest inner objects and
with a copy buffer of any size.  `moved` is what the writer accepted and `lost` what was read
but refused by a failing writer.  Whatever happens: the bytes read are `moved`, then `lost`, then
what is still in the reader's buffer; the bytes received by the inner writer and those in the
writer's buffer are those it held and `moved`, none lost or doubled; no other map or ring has changed.
`Ok(n)`: everything up to end of file was moved and `n` is its length.  An error or panic is
that of the reader's (then nothing is lost) or of the writer's last call.  The order is kept if no
piece exactly fills the free space of the writer's buffer while something is in it, in
particular if everything together is shorter than the writer's capacity.

Full statement (false, see `C127_order_false`): the order is always kept. -/
theorem C127_copy_partial {tab : SysTable} {t : Target} {k0 : Kernel} (wf : Wf t k0) {w : World}
    (h : Reach tab t k0 w) (R : Reader σ) (hR : R.Honest) (W : Writer τ) (hW : W.Honest)
    {i j n m : Nat} (hij : i ≠ j) {r : BufReader (σ × List ReadEvent)}
    {b : BufWriter (τ × List WriteEvent)} (hi : w.held i = some (.ring r.buf n))
    (hj : w.held j = some (.ring b.buf m)) {qr qw : List Byte} (hqr : r.buffer t w.k = .ok qr)
    (hqw : b.buffered t w.k = .ok qw) (fuel rounds steps : Nat) (dst : Nat → List Byte)
    (hd : ∀ i, dst i ≠ [])
    (belowr : n + steps * SeqWrite.writeCapacity r.buf <
      posBound t (SeqWrite.writeCapacity r.buf))
    (beloww : m + steps * (rounds * SeqWrite.writeCapacity b.buf) <
      posBound t (SeqWrite.writeCapacity b.buf)) :
    ∃ k' r' b' x n' m' qr' qw' er ew moved lost w',
      ioCopy R.spy W.spy t fuel rounds steps dst w.k r b 0 = .ok (k', r', b', x) ∧
      Reach tab t k0 w' ∧ w'.k = k' ∧ w'.held i = some (.ring r'.buf n') ∧
      w'.held j = some (.ring b'.buf m') ∧ (∀ l, l ≠ i → l ≠ j → w'.held l = w.held l ∧
        ∀ x, w.held l = some x → ∀ a, x.base ≤ a → a < x.base + x.bytes →
          k'.load a = w.k.load a) ∧
      r'.buffer t k' = .ok qr' ∧ b'.buffered t k' = .ok qw' ∧
      r'.inner.2 = r.inner.2 ++ er ∧ b'.inner.2 = b.inner.2 ++ ew ∧
      qr ++ taken er = moved ++ lost ++ qr' ∧
      (received ew ++ qw').Perm (qw ++ moved) ∧
      (NoPieceFits R.spy W.spy t fuel rounds steps dst w.k r b ∨
          qw.length + moved.length + lost.length < SeqWrite.writeCapacity b.buf →
        received ew ++ qw' = qw ++ moved) ∧
      match x with
      | .ok n => n = moved.length ∧ lost = [] ∧ qr' = [] ∧ SaidEof er
      | .err e => (lost = [] ∧ SaidErr er e) ∨ (lost ≠ [] ∧ WriteFailed ew e)
      | .unwound => (lost = [] ∧ SaidPanic er) ∨ (lost ≠ [] ∧ WritePanicked ew)
      | .pending => steps ≤ moved.length + interrupts er ∨ rounds ≤ moved.length + refused ew ∨
          fuel ≤ SeqWrite.writeCapacity b.buf + refused ew := by
  obtain ⟨k', r', b', x, n', m', qr', qw', er, ew, moved, lost, w', e, rc, hk, h1, h2, h3, -, -, -, -,
    h4, h5, h6, h7, c⟩ := copy_in wf R hR W hW fuel rounds hij steps dst hd h hi hj hqr hqw belowr
      beloww 0
  refine ⟨k', r', b', x, n', m', qr', qw', er, ew, moved, lost, w', e, rc, hk, h1, h2, h3, h4, h5, h6,
    h7, c.read, c.written, c.order, ?_⟩
  have := c.result
  cases x with
  | ok c => simpa only [Nat.zero_add] using this
  | err e => exact this
  | unwound => exact this
  | pending => exact this

/-- C127: a copy that succeeds followed by a `flush` that succeeds delivers to the inner writer exactly
the bytes that were in either buffer or were read, each once; in order under the condition of
`C127_copy_partial`, which is in particular met if all of it is shorter than the
writer's capacity. -/
theorem C127_delivered_partial {tab : SysTable} {t : Target} {k0 : Kernel} (wf : Wf t k0) {w : World}
    (h : Reach tab t k0 w) (R : Reader σ) (hR : R.Honest) (W : Writer τ) (hW : W.Honest)
    {i j n m : Nat} (hij : i ≠ j) {r r' : BufReader (σ × List ReadEvent)}
    {b b' b'' : BufWriter (τ × List WriteEvent)} (hi : w.held i = some (.ring r.buf n))
    (hj : w.held j = some (.ring b.buf m)) {qr qw : List Byte} (hqr : r.buffer t w.k = .ok qr)
    (hqw : b.buffered t w.k = .ok qw) (fuel rounds steps : Nat) (dst : Nat → List Byte)
    (hd : ∀ i, dst i ≠ [])
    (belowr : n + steps * SeqWrite.writeCapacity r.buf <
      posBound t (SeqWrite.writeCapacity r.buf))
    (beloww : m + steps * (rounds * SeqWrite.writeCapacity b.buf) <
      posBound t (SeqWrite.writeCapacity b.buf)) {k' : Kernel} {c fuel' : Nat}
    (copied : ioCopy R.spy W.spy t fuel rounds steps dst w.k r b 0 = .ok (k', r', b', .ok c))
    (flushed : b'.flush W.spy t fuel' k' = .ok (b'', .ok ())) :
    ∃ er ew, r'.inner.2 = r.inner.2 ++ er ∧ b''.inner.2 = b.inner.2 ++ ew ∧ SaidEof er ∧
      r'.buffer t k' = .ok [] ∧ b''.buffered t k' = .ok [] ∧
      c = qr.length + (taken er).length ∧
      (received ew).Perm (qw ++ qr ++ taken er) ∧
      (NoPieceFits R.spy W.spy t fuel rounds steps dst w.k r b ∨
          qw.length + c < SeqWrite.writeCapacity b.buf →
        received ew = qw ++ qr ++ taken er) := by
  obtain ⟨k1, r1, b1, x, n', m', qr', qw', er, ew, moved, lost, w', e, rc, hk, h1, h2, h3, -, -, -, -,
    h4, h5, h6, h7, cp⟩ := copy_in wf R hR W hW fuel rounds hij steps dst hd h hi hj hqr hqw belowr
      beloww 0
  rw [copied] at e
  injection e with e; injection e with e1 e; injection e with e2 e; injection e with e3 e
  subst e1 e2 e3 e
  obtain ⟨hc, hl, hq, he⟩ := cp.result
  subst hl hq
  have hr := cp.read
  rw [List.append_nil, List.append_nil] at hr
  subst hk
  obtain ⟨q1, sp, v⟩ := RingAt.view ((rc.inv wf).live j _ h2).1
  rw [BufWriter.buffered, v.readSlice] at h5
  injection h5 with h5
  subst h5
  obtain ⟨b2, y, ev, q2, sp2, e2, v2, -, -, lg, hx⟩ := bw_flush_view W v fuel'
  rw [flushed] at e2
  injection e2 with e2; injection e2 with e2 e3
  subst e2 e3
  rcases hx with ⟨hx, -⟩ | ⟨ev1, r, g1, g2, g3, -⟩
  · exact absurd rfl hx
  subst g3
  have hs := g2.split
  rw [List.append_nil] at hs
  have hrec : received (ew ++ ev) = received ew ++ q1 := by
    rw [g1, hs, received_append, received_append, received_one]
    simp [WriteEvent.bytes]
  refine ⟨er, ew ++ ev, h6, by rw [lg, h7, List.append_assoc], he, h4, v2.readSlice, ?_, ?_, ?_⟩
  · rw [hc, ← hr, List.length_append]; omega
  · rw [hrec, List.append_assoc, hr]; exact cp.written
  · intro hcond
    rw [hrec, List.append_assoc, hr]
    refine cp.order (hcond.imp id (fun hcond => ?_))
    rw [List.length_nil]
    simp only [SeqWrite.writeCapacity] at hcond
    omega

/-! ### The order -/

theorem read_direct {R : Reader σ} {t : Target} {k : Kernel} {r : BufReader (σ × List ReadEvent)}
    {dst st : List Byte} {s' : σ} {m : Nat} (empty : r.buf.readLen t = .ok 0)
    (big : r.buf.len ≤ dst.length) (call : R.read r.inner.1 dst = (s', .ok m st)) :
    r.read R.spy t k dst = .ok (k, { r with inner := (s', r.inner.2 ++ [⟨dst, .ok m st⟩]) },
      BufReader.storeFront dst st, .ok m) := by
  simp only [BufReader.read, empty, bind, Except.bind, SeqWrite.writeCapacity]
  rw [if_pos ⟨trivial, big⟩, spy_read call]
  rfl

theorem writeAll_buffers {W : Writer τ} {t : Target} {k : Kernel} {fuel rounds : Nat}
    {b : BufWriter (τ × List WriteEvent)} {n : Nat} {q sp : List Byte} (v : View t k b.buf n q sp)
    {data : List Byte} (hd : data ≠ []) (small : data.length < sp.length)
    (hb : n + data.length < posBound t b.buf.len) :
    ∃ k' b', b.writeAll W.spy t fuel (rounds + 2) k data = .ok (k', b', [], .ok ()) ∧
      View t k' b'.buf (n + data.length) (q ++ data) (sp.drop data.length) ∧
      b'.buf.len = b.buf.len ∧ b'.inner = b.inner := by
  have hpos := List.length_pos_iff.mpr hd
  have hm : min data.length sp.length = data.length := by omega
  obtain ⟨k', r', e, v', l, -⟩ := v.write data (by omega)
  rw [hm] at e v'
  rw [List.take_of_length_le (by omega)] at v'
  have hw : b.write W.spy t fuel k data = .ok (k', { b with buf := r' }, .ok data.length) := by
    simp only [BufWriter.write, BufWriter.writeRest, v.writeLen, bind, Except.bind]
    rw [if_neg (by omega), if_neg (by omega), e]
    rfl
  refine ⟨k', { b with buf := r' }, ?_, v', l, rfl⟩
  obtain ⟨m, hm⟩ : ∃ m, data.length = m + 1 := ⟨data.length - 1, by omega⟩
  rw [BufWriter.writeAll, if_neg (by omega), hw]
  simp only [bind, Except.bind, hm]
  rw [if_neg (by omega), BufWriter.writeAll, ← hm]
  simp [pure, Except.pure]

theorem writeAll_exact {t : Target} {k : Kernel} {fuel rounds : Nat}
    {b : BufWriter (Unit × List WriteEvent)} {n : Nat} {q sp : List Byte}
    (v : View t k b.buf n q sp) {data : List Byte} (hd : data ≠ [])
    (exact_ : data.length = sp.length) :
    b.writeAll takesAll.spy t fuel (rounds + 2) k data =
      .ok (k, { b with inner := ((), b.inner.2 ++ [.write data (.ok data.length)]),
                       panicked := false }, [], .ok ()) := by
  have hpos := List.length_pos_iff.mpr hd
  have hw : b.write takesAll.spy t fuel k data =
      .ok (k, { b with inner := ((), b.inner.2 ++ [.write data (.ok data.length)]),
                       panicked := false }, .ok data.length) := by
    simp only [BufWriter.write, BufWriter.writeRest, v.writeLen, bind, Except.bind]
    rw [if_neg (by omega), if_pos (by omega)]
    rfl
  obtain ⟨m, hm⟩ : ∃ m, data.length = m + 1 := ⟨data.length - 1, by omega⟩
  rw [BufWriter.writeAll, if_neg (by omega), hw]
  simp only [bind, Except.bind, hm]
  rw [if_neg (by omega), BufWriter.writeAll, ← hm]
  simp [pure, Except.pure]

theorem storeFront_all {dst st : List Byte} (h : st.length = dst.length) :
    BufReader.storeFront dst st = st := by
  simp [BufReader.storeFront, ← h]

theorem swap_run {t : Target} {fuel rounds c : Nat} (hc : 0 < c) (last : List Byte)
    (hlast : last.length = c) (dst : Nat → List Byte) (hd : ∀ i, (dst i).length = c) :
    ∀ (cs : List (List Byte)) (_ : ∀ x ∈ cs, x.length = c) {k : Kernel}
    {r : BufReader (List (List Byte) × List ReadEvent)} {b : BufWriter (Unit × List WriteEvent)}
    {n : Nat} {q sp : List Byte} (_ : View t k b.buf n q sp) (_ : r.buf.readLen t = .ok 0)
    (_ : r.buf.len ≤ c) (_ : r.inner.1 = cs ++ [last]) (_ : q ≠ [] ∨ cs ≠ [])
    (_ : sp.length = (cs.length + 1) * c) (_ : n + sp.length < posBound t b.buf.len) (len j : Nat),
    ∃ k' r' b' n' sp', ioCopy pieces.spy takesAll.spy t fuel (rounds + 2) (cs.length + 2)
        (fun i => dst (i + j)) k r b len = .ok (k', r', b', .ok (len + (cs.length + 1) * c)) ∧
      View t k' b'.buf n' (q ++ cs.flatten) sp' ∧
      taken r'.inner.2 = taken r.inner.2 ++ cs.flatten ++ last ∧
      received b'.inner.2 = received b.inner.2 ++ last
  | [], _, k, r, b, n, q, sp, v, h0, hr, hin, hne, hsp, hb, len, j => by
    rw [List.length_nil, Nat.zero_add, Nat.one_mul] at hsp ⊢
    have hl0 : last ≠ [] := by intro h; subst h; simp at hlast; omega
    have call : pieces.read r.inner.1 (dst (0 + j)) = ([], .ok last.length last) := by
      rw [hin]; simp [pieces, hd, hlast]
    obtain ⟨m, hm⟩ : ∃ m, c = m + 1 := ⟨c - 1, by omega⟩
    rw [ioCopy, read_direct h0 (by rw [hd]; exact hr) call, storeFront_all (by rw [hlast, hd]), hlast]
    simp only [bind, Except.bind, hm]
    rw [if_neg (by omega), List.take_of_length_le (by omega),
      writeAll_exact v hl0 (by omega)]
    simp only
    rw [ioCopy, read_direct (r := { r with inner := ([], _) }) (s' := []) (m := 0) (st := []) h0
      (by rw [hd]; exact hr) rfl]
    simp only [bind, Except.bind, pure, Except.pure]
    refine ⟨_, _, _, n, sp, rfl, by simpa using v, ?_, ?_⟩
    · dsimp only
      rw [taken_append, taken_append, taken_one, taken_one]
      simp [ReadEvent.bytes, hd, ← hm, ← hlast]
    · simp [received, WriteEvent.bytes]
  | x :: cs, hx, k, r, b, n, q, sp, v, h0, hr, hin, hne, hsp, hb, len, j => by
    have hxl := hx x (by simp)
    have hx0 : x ≠ [] := by intro h; subst h; simp at hxl; omega
    have call : pieces.read r.inner.1 (dst (0 + j)) = (cs ++ [last], .ok x.length x) := by
      rw [hin]; simp [pieces, hd, hxl]
    obtain ⟨m, hm⟩ : ∃ m, c = m + 1 := ⟨c - 1, by omega⟩
    rw [List.length_cons] at hsp ⊢
    have hmul : (cs.length + 1 + 1) * c = (cs.length + 1) * c + c := by
      rw [Nat.add_mul (cs.length + 1), Nat.one_mul]
    have hmul2 : (cs.length + 1) * c = cs.length * c + c := by
      rw [Nat.add_mul, Nat.one_mul]
    obtain ⟨k1, b1, e1, v1, l1, i1⟩ := writeAll_buffers (W := takesAll) (fuel := fuel)
      (rounds := rounds) v hx0 (by omega) (by omega)
    obtain ⟨k2, r2, b2, n2, sp2, e2, v2, t2, w2⟩ := swap_run (fuel := fuel) (rounds := rounds) hc
      last hlast dst hd cs (fun y hy => hx y (by simp [hy])) (k := k1)
      (r := { r with inner := (cs ++ [last], r.inner.2 ++ [⟨dst (0 + j), .ok x.length x⟩]) })
      v1 h0 hr rfl (.inl (by simp [hx0])) (by rw [List.length_drop]; omega)
      (by rw [List.length_drop, l1]; omega) (len + c) (j + 1)
    rw [ioCopy, read_direct h0 (by rw [hd]; exact hr) call, storeFront_all (by rw [hxl, hd]), hxl]
    simp only [bind, Except.bind, hm]
    rw [if_neg (by omega), List.take_of_length_le (by omega), e1]
    simp only
    have hfun : (fun i => dst (i + 1 + j)) = fun i => dst (i + (j + 1)) := by
      funext i; rw [show i + 1 + j = i + (j + 1) by omega]
    rw [hfun, ← hm, ← hxl]
    refine ⟨k2, r2, b2, n2, sp2, ?_, ?_, ?_, ?_⟩
    · rw [hxl] at e2 ⊢
      rw [e2, hmul, Nat.add_assoc, Nat.add_comm c]
    · rw [List.flatten_cons, ← List.append_assoc]; exact v2
    · rw [t2, taken_append, taken_one]
      simp [ReadEvent.bytes, hd, ← hxl]
    · rw [w2, i1]

theorem flush_takesAll {t : Target} {k : Kernel} {b : BufWriter (Unit × List WriteEvent)} {n : Nat}
    {q sp : List Byte} (v : View t k b.buf n q sp) (hq : q ≠ []) (fuel : Nat) :
    ∃ b', b.flush takesAll.spy t (fuel + 2) k = .ok (b', .ok ()) ∧
      received b'.inner.2 = received b.inner.2 ++ q := by
  have hpos := List.length_pos_iff.mpr hq
  obtain ⟨m, hm⟩ : ∃ m, q.length = m + 1 := ⟨q.length - 1, by omega⟩
  obtain ⟨r, e1, v1, -, -⟩ := v.consume (m + 1)
  rw [List.drop_of_length_le (by omega)] at v1
  have e2 : BufWriter.flushBuf takesAll.spy t k (fuel + 2) b =
      .ok (⟨r, ((), b.inner.2 ++ [.write q (.ok (m + 1))]), false⟩, .ok ()) := by
    rw [BufWriter.flushBuf]
    simp only [v.isEmpty_eq, BufWriter.buffered, v.readSlice, bind, Except.bind, takesAll,
      Writer.spy, hm]
    rw [if_neg (by simp)]
    simp only [e1]
    rw [BufWriter.flushBuf]
    simp only [v1.isEmpty_eq, bind, Except.bind]
    rfl
  refine ⟨_, by rw [BufWriter.flush, e2]; rfl, ?_⟩
  simp [received, WriteEvent.bytes, ← hm]

/-- C127, why the order is not always kept: the reader hands out pieces of `c` bytes (as a file does
when the copy buffer has `c` bytes), the writer takes everything it is given, and its buffer is
empty and holds exactly two or more such pieces.  Then the copy succeeds and so does the
`flush`, but the last of these pieces has been written before all the others. -/
theorem C127_order_false {t : Target} {k : Kernel} {n m : Nat}
    {r : BufReader (List (List Byte) × List ReadEvent)} {b : BufWriter (Unit × List WriteEvent)}
    (hr : RingAt t k r.buf m) (hb : RingAt t k b.buf n) (hqr : r.buffer t k = .ok [])
    (hqw : b.buffered t k = .ok []) (hlr : r.inner.2 = []) (hlw : b.inner.2 = []) {c : Nat}
    (hc : 0 < c) (hcap : SeqWrite.writeCapacity r.buf ≤ c) {cs : List (List Byte)}
    {last : List Byte} (hcs : ∀ x ∈ cs, x.length = c) (hlast : last.length = c) (two : cs ≠ [])
    (fit : SeqWrite.writeCapacity b.buf = (cs.length + 1) * c)
    (source : r.inner.1 = cs ++ [last]) (dst : Nat → List Byte) (hd : ∀ i, (dst i).length = c)
    (below : n + SeqWrite.writeCapacity b.buf < posBound t (SeqWrite.writeCapacity b.buf))
    (fuel rounds fuel' : Nat) :
    ∃ k' r' b' b'', ioCopy pieces.spy takesAll.spy t fuel (rounds + 2) (cs.length + 2) dst k r b 0 =
        .ok (k', r', b', .ok (SeqWrite.writeCapacity b.buf)) ∧
      b'.flush takesAll.spy t (fuel' + 2) k' = .ok (b'', .ok ()) ∧
      taken r'.inner.2 = cs.flatten ++ last ∧ received b''.inner.2 = last ++ cs.flatten := by
  obtain ⟨q, sp, v⟩ := hb.view
  rw [BufWriter.buffered, v.readSlice] at hqw
  injection hqw with hqw
  subst hqw
  obtain ⟨q1, sp1, v1⟩ := hr.view
  rw [BufReader.buffer, v1.readSlice] at hqr
  injection hqr with hqr
  subst hqr
  have hl := v.len
  simp only [SeqWrite.writeCapacity] at fit below hcap ⊢
  rw [List.length_nil, Nat.zero_add] at hl
  obtain ⟨k', r', b', n', sp', e, v', ht, hw⟩ := swap_run (fuel := fuel) (rounds := rounds) hc last
    hlast dst hd cs hcs v v1.readLen hcap source (.inr two) (by omega) (by omega) 0 0
  have hne : [] ++ cs.flatten ≠ [] := by
    obtain ⟨x, xs, rfl⟩ := List.exists_cons_of_ne_nil two
    have := hcs x (by simp)
    intro h
    rw [List.nil_append, List.flatten_cons] at h
    have h2 := (List.append_eq_nil_iff.mp h).1
    rw [h2, List.length_nil] at this
    omega
  obtain ⟨b'', ef, hf⟩ := flush_takesAll v' hne fuel'
  refine ⟨k', r', b', b'', by rw [fit, ← Nat.zero_add ((cs.length + 1) * c)]; exact e, ef, ?_, ?_⟩
  · rw [ht, hlr]; simp [taken]
  · rw [hf, hw, hlw]; simp [received]

/-- Non-vacuity: a program makes a reader of capacity 8192 and a writer of capacity 16384. -/
theorem demo_copy (tab : SysTable) : ∃ (w : World) (r s : Ring),
    Reach tab ⟨.w64, true⟩ (demo 0) w ∧ w.held 0 = some (.ring r 0) ∧ w.held 1 = some (.ring s 0) ∧
    SeqWrite.writeCapacity r = 8192 ∧ SeqWrite.writeCapacity s = 16384 := by
  have step : ∀ {w w' : World} {op : Op}, Reach tab ⟨.w64, true⟩ (demo 0) w →
      op.Sane ⟨.w64, true⟩ w → w.step tab ⟨.w64, true⟩ op = .ok w' →
      Reach tab ⟨.w64, true⟩ (demo 0) w' := fun a b c => .step a b c
  refine ⟨_, _, _, step (op := .newRing 16384) (step (op := .newRing 8192) .start ?_ rfl) ?_ rfl,
    rfl, rfl, rfl, rfl⟩
  · exact ⟨by show (8192 + 4096 : Nat) < _; decide, fun h => by cases h⟩
  · exact ⟨by show (16384 + 4096 : Nat) < _; decide, fun h => by cases h⟩

theorem new_empty {t : Target} {k : Kernel} {r : Ring} (h : RingAt t k r 0) :
    readSliceBytes t k r t.usizeMax = .ok [] := by
  obtain ⟨q, sp, v⟩ := h.view
  obtain ⟨o, rep⟩ := v.rep
  have h1 := rep.qlen
  have h2 := rep.total
  simp only at h1 h2
  rw [v.readSlice, List.eq_nil_of_length_eq_zero (l := q) (by omega)]

-- 16 KiB copied with the standard library's buffer of 8 KiB through a writer of 16 KiB: the two
-- halves `x` and `y` arrive swapped
example (tab : SysTable) (x y : List Byte) (hx : x.length = 8192) (hy : y.length = 8192) : Wf ⟨.w64, true⟩ (demo 0) ∧
    ∃ (w : World) (r : BufReader (List (List Byte) × List ReadEvent))
    (b : BufWriter (Unit × List WriteEvent)), Reach tab ⟨.w64, true⟩ (demo 0) w ∧
    w.held 0 = some (.ring r.buf 0) ∧ w.held 1 = some (.ring b.buf 0) ∧
    ∃ k' r' b' b'', ioCopy pieces.spy takesAll.spy ⟨.w64, true⟩ 2 2 3
        (fun _ => List.replicate 8192 0) w.k r b 0 = .ok (k', r', b', .ok 16384) ∧
      b'.flush takesAll.spy ⟨.w64, true⟩ 2 k' = .ok (b'', .ok ()) ∧
      taken r'.inner.2 = x ++ y ∧ received b''.inner.2 = y ++ x := by
  refine ⟨demo_wf 0, ?_⟩
  obtain ⟨w, r, s, h, h0, h1, hr, hs⟩ := demo_copy tab
  have v := h.inv (demo_wf 0)
  have ra := (v.live 0 _ h0).1
  have sa := (v.live 1 _ h1).1
  refine ⟨w, ⟨r, ([x] ++ [y], []), 0⟩, ⟨s, ((), []), false⟩, h, h0, h1, ?_⟩
  have key := C127_order_false (t := ⟨.w64, true⟩) (k := w.k)
    (r := ⟨r, ([x] ++ [y], []), 0⟩) (b := ⟨s, ((), []), false⟩) (cs := [x]) (last := y)
    ra sa (new_empty ra) (new_empty sa) rfl rfl (c := 8192) (by omega) (by simp [hr])
    (by simp [hx]) hy (by simp) (by simp [hs]) rfl (fun _ => List.replicate 8192 0)
    (fun _ => List.length_replicate)
    (by simp only [hs]; simp [posBound, Target.lim, Width.bits, lim64]) 2 0 0
  simpa only [hs, List.flatten_cons, List.flatten_nil, List.append_nil, List.length_cons,
    List.length_nil, Nat.zero_add, Nat.reduceAdd] using key

-- the same program, over a reader that hands out pieces and a writer that takes two bytes at a time
example (tab : SysTable) : Wf ⟨.w64, true⟩ (demo 0) ∧
    ∃ (w : World) (r : BufReader (List (List Byte) × List ReadEvent))
    (b : BufWriter (List Byte × List WriteEvent)), Reach tab ⟨.w64, true⟩ (demo 0) w ∧
    pieces.Honest ∧ twoWriter.Honest ∧ (0 : Nat) ≠ 1 ∧
    w.held 0 = some (.ring r.buf 0) ∧ w.held 1 = some (.ring b.buf 0) ∧
    r.buffer ⟨.w64, true⟩ w.k = .ok [] ∧ b.buffered ⟨.w64, true⟩ w.k = .ok [] ∧
    0 + 1000 * SeqWrite.writeCapacity r.buf <
      posBound ⟨.w64, true⟩ (SeqWrite.writeCapacity r.buf) ∧
    0 + 1000 * (5000 * SeqWrite.writeCapacity b.buf) <
      posBound ⟨.w64, true⟩ (SeqWrite.writeCapacity b.buf) := by
  refine ⟨demo_wf 0, ?_⟩
  obtain ⟨w, r, s, h, h0, h1, hr, hs⟩ := demo_copy tab
  have v := h.inv (demo_wf 0)
  refine ⟨w, ⟨r, ([[1], [2, 3]], []), 0⟩, ⟨s, ([], []), false⟩, h, ?_, ?_, by omega, h0, h1,
    new_empty (v.live 0 _ h0).1, new_empty (v.live 1 _ h1).1, ?_, ?_⟩
  · intro s off
    cases s with
    | nil => simp [pieces]
    | cons c cs => by_cases h : c.length ≤ off.length <;> simp [pieces, h]
  · intro s data; simp only [twoWriter]; omega
  · simp only [hr]; simp [posBound, Target.lim, Width.bits, lim64]
  · simp only [hs]; simp [posBound, Target.lim, Width.bits, lim64]

end Vmap
