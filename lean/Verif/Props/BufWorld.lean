import Verif.Proofs.BufWorld
import Verif.Props.World
import Verif.Props.BufWriter
import Verif.Props.BufReader
/-
Property theorem C93: buffered readers and writers in whole programs.
-/
namespace Vmap
open Kernel Spec
variable {σ : Type}

/-- C93 for `BufReader`: a program in any reachable state holds a ring inside a `BufReader` (handle
`j`), and makes any sequence of calls on it; the inner reader may do anything.  The state
afterwards is again one that C75, C77 and C78 speak about (with the ring in its new state),
and nothing but the ring's own memory has changed. -/
theorem C93_reader {tab : SysTable} {t : Target} {k0 : Kernel} (wf : Wf t k0) {w : World}
    (h : Reach tab t k0 w) (R : Reader σ) {j n : Nat} {b : BufReader σ}
    (hj : w.held j = some (.ring b.buf n)) (ops : List RdOp)
    (below : n + ops.length * SeqWrite.writeCapacity b.buf <
      posBound t (SeqWrite.writeCapacity b.buf))
    {k' : Kernel} {b' : BufReader σ} {out : List Byte}
    (run : b.execAll R t w.k ops = .ok ((k', b'), out)) :
    ∃ n', Reach tab t k0 (w.upd k' j (some (.ring b'.buf n'))) ∧
      n' ≤ n + ops.length * SeqWrite.writeCapacity b.buf ∧
      SeqWrite.writeCapacity b'.buf = SeqWrite.writeCapacity b.buf ∧ OnlyHandle w k' j :=
  (rd_execAll_uses run).world wf h hj below

/-- C93 for `BufWriter`: as `C93_reader`, for any sequence of `write` and `flush`. -/
theorem C93_writer {tab : SysTable} {t : Target} {k0 : Kernel} (wf : Wf t k0) {w : World}
    (h : Reach tab t k0 w) (W : Writer σ) (fuel : Nat) {j n : Nat} {b : BufWriter σ}
    (hj : w.held j = some (.ring b.buf n)) (ops : List WrOp)
    (below : n + ops.length * SeqWrite.writeCapacity b.buf <
      posBound t (SeqWrite.writeCapacity b.buf))
    {k' : Kernel} {b' : BufWriter σ} {acc : List Byte}
    (run : b.execAll W t fuel w.k ops = .ok ((k', b'), acc)) :
    ∃ n', Reach tab t k0 (w.upd k' j (some (.ring b'.buf n'))) ∧
      n' ≤ n + ops.length * SeqWrite.writeCapacity b.buf ∧
      SeqWrite.writeCapacity b'.buf = SeqWrite.writeCapacity b.buf ∧ OnlyHandle w k' j :=
  (wr_execAll_uses run).world wf h hj below

/-- C93: making a `BufReader` or a `BufWriter` is making a ring. -/
theorem C93_new {tab : SysTable} {t : Target} {k0 : Kernel} {w : World}
    (h : Reach tab t k0 w) (s : σ) {capacity : Nat} (hc : RingFits t w.k capacity) :
    (∀ k' b, BufReader.new t w.k s capacity = .ok (k', .ok b) →
      Reach tab t k0 (w.put k' (.ring b.buf 0))) ∧
    (∀ k' b, BufWriter.new t w.k s capacity = .ok (k', .ok b) →
      Reach tab t k0 (w.put k' (.ring b.buf 0))) := by
  have key : ∀ k' r, Ring.make t w.k capacity = .ok (k', .ok r) →
      Reach tab t k0 (w.put k' (.ring r 0)) := by
    intro k' r e
    refine .step (op := .newRing capacity) h hc ?_
    simp only [World.step, e, bind, Except.bind, pure, Except.pure]
  constructor
  · intro k' b e
    unfold BufReader.new at e
    obtain ⟨⟨k1, r⟩, e1, e⟩ := bind_ok e
    cases r with
    | error err => cases e
    | ok r =>
      injection e with e; injection e with e2 e3; injection e3 with e3
      subst e2 e3
      exact key _ _ e1
  · intro k' b e
    unfold BufWriter.new at e
    obtain ⟨⟨k1, r⟩, e1, e⟩ := bind_ok e
    cases r with
    | error err => cases e
    | ok r =>
      injection e with e; injection e with e2 e3; injection e3 with e3
      subst e2 e3
      exact key _ _ e1

/-- Dropping the ring in a world whose handle `j` has been updated. -/
theorem drop_world {tab : SysTable} {t : Target} {k0 : Kernel} {w : World} {j n : Nat}
    {k1 k' : Kernel} {r : Ring} (h : Reach tab t k0 (w.upd k1 j (some (.ring r n))))
    (e : r.drop t k1 = .ok k') : Reach tab t k0 (w.upd k' j none) := by
  have st : (w.upd k1 j (some (.ring r n))).step tab t (.drop j) =
      .ok ((w.upd k1 j (some (.ring r n))).upd k' j none) := by
    have hj : (w.upd k1 j (some (.ring r n))).held j = some (.ring r n) := by
      simp only [World.upd, if_true]
    have hk : (w.upd k1 j (some (.ring r n))).k = k1 := rfl
    simp only [World.step, hj, hk, e, bind, Except.bind, pure, Except.pure]
  have := Reach.step (op := .drop j) h trivial st
  rw [upd_upd] at this
  exact this

/-- C93: `BufReader::into_inner` is dropping the ring. -/
theorem C93_reader_into_inner {tab : SysTable} {t : Target} {k0 : Kernel} {w : World}
    (h : Reach tab t k0 w) {j n : Nat} {b : BufReader σ} (hj : w.held j = some (.ring b.buf n))
    {k' : Kernel} {s : σ} (run : b.intoInner t w.k = .ok (k', s)) :
    Reach tab t k0 (w.upd k' j none) := by
  unfold BufReader.intoInner at run
  obtain ⟨k1, e, run⟩ := bind_ok run
  injection run with run; injection run with h1 h2; subst h1
  refine drop_world (n := n) (k1 := w.k) (r := b.buf) ?_ e
  rw [World.Inv.upd_self hj]; exact h

/-- C93: dropping a `BufWriter` (which may call the inner writer any number of times, and unwind)
ends with dropping the ring. -/
theorem C93_writer_drop {tab : SysTable} {t : Target} {k0 : Kernel} (wf : Wf t k0) {w : World}
    (h : Reach tab t k0 w) (W : Writer σ) (fuel : Nat) {j n : Nat} {b : BufWriter σ}
    (hj : w.held j = some (.ring b.buf n))
    (below : n < posBound t (SeqWrite.writeCapacity b.buf))
    {k' : Kernel} {s : σ} {x : Out Unit} (run : b.drop W t fuel w.k = .ok (k', s, x))
    (hx : x ≠ .pending) : Reach tab t k0 (w.upd k' j none) := by
  unfold BufWriter.drop at run
  split at run
  · obtain ⟨k1, e, run⟩ := bind_ok run
    injection run with run; injection run with h1 h2; subst h1
    refine drop_world (n := n) (k1 := w.k) (r := b.buf) ?_ e
    rw [World.Inv.upd_self hj]; exact h
  · obtain ⟨⟨b1, y⟩, e, run⟩ := bind_ok run
    obtain ⟨n', hr, -⟩ := (flushBuf_uses e).world wf h hj (by rw [Nat.zero_mul]; exact below)
    dsimp only at run
    split at run
    · injection run with run; injection run with h1 h2; injection h2 with h2 h3
      exact absurd h3.symm hx
    all_goals
      obtain ⟨k1, e2, run⟩ := bind_ok run
      injection run with run; injection run with h1 h2; subst h1
      exact drop_world hr e2

/-- C93: a `BufWriter::into_inner` that succeeds or unwinds ends with dropping the ring; a failed one
leaves the ring in the error. -/
theorem C93_writer_into_inner {tab : SysTable} {t : Target} {k0 : Kernel} (wf : Wf t k0) {w : World}
    (h : Reach tab t k0 w) (W : Writer σ) (fuel : Nat) {j n : Nat} {b : BufWriter σ}
    (hj : w.held j = some (.ring b.buf n))
    (below : n < posBound t (SeqWrite.writeCapacity b.buf)) {k' : Kernel} :
    (∀ s, b.intoInner W t fuel w.k = .ok (k', .ok s) ∨
        b.intoInner W t fuel w.k = .ok (k', .unwound s) → Reach tab t k0 (w.upd k' j none)) ∧
    (∀ b' e, b.intoInner W t fuel w.k = .ok (k', .err b' e) →
      ∃ n', Reach tab t k0 (w.upd k' j (some (.ring b'.buf n'))) ∧ OnlyHandle w k' j) := by
  constructor
  · intro s run
    have run : ∃ y : BufWriter.Inner σ, b.intoInner W t fuel w.k = .ok (k', y) ∧
        (y = .ok s ∨ y = .unwound s) := by
      rcases run with h | h
      · exact ⟨_, h, .inl rfl⟩
      · exact ⟨_, h, .inr rfl⟩
    obtain ⟨z, run, hz⟩ := run
    unfold BufWriter.intoInner at run
    obtain ⟨⟨b1, y⟩, e, run⟩ := bind_ok run
    obtain ⟨n', hr, -⟩ := (flushBuf_uses e).world wf h hj (by rw [Nat.zero_mul]; exact below)
    dsimp only at run
    split at run
    · injection run with run; injection run with h1 h2; subst h2; simp at hz
    · obtain ⟨k1, e2, run⟩ := bind_ok run
      injection run with run; injection run with h1 h2; subst h1
      exact drop_world hr e2
    · obtain ⟨⟨k1, i1, y1⟩, e2, run⟩ := bind_ok run
      injection run with run; injection run with h1 h2; subst h1
      have hp := flushBuf_unwound e
      simp only [BufWriter.drop, hp, if_true] at e2
      obtain ⟨k2, e3, e2⟩ := bind_ok e2
      injection e2 with e2; injection e2 with g1 g2; subst g1
      exact drop_world hr e3
    · injection run with run; injection run with h1 h2; subst h2; simp at hz
  · intro b' er run
    unfold BufWriter.intoInner at run
    obtain ⟨⟨b1, y⟩, e, run⟩ := bind_ok run
    obtain ⟨n', hr, -, -, on⟩ := (flushBuf_uses e).world wf h hj (by rw [Nat.zero_mul]; exact below)
    dsimp only at run
    split at run
    · injection run with run; injection run with h1 h2; injection h2 with h2 h3
      subst h1 h2
      exact ⟨n', hr, on⟩
    · obtain ⟨k1, e2, run⟩ := bind_ok run
      injection run with run; injection run with h1 h2; cases h2
    · obtain ⟨⟨k1, i1, y1⟩, e2, run⟩ := bind_ok run
      injection run with run; injection run with h1 h2; cases h2
    · injection run with run; injection run with h1 h2; cases h2

/-- Non-vacuity: on the demo kernel a program maps part of the file and makes a ring (8192 bytes
here), which it hands to a `BufReader` over a reader that does as it likes. -/
theorem demo_world (tab : SysTable) : ∃ (w : World) (r : Ring), Reach tab ⟨.w64, true⟩ (demo 0) w ∧
    (∃ m, w.held 0 = some (.map m) ∧ m.len = 3000) ∧ w.held 1 = some (.ring r 0) ∧
    SeqWrite.writeCapacity r = 8192 := by
  have step : ∀ {w w' : World} {op : Op}, Reach tab ⟨.w64, true⟩ (demo 0) w →
      op.Sane ⟨.w64, true⟩ w → w.step tab ⟨.w64, true⟩ op = .ok w' →
      Reach tab ⟨.w64, true⟩ (demo 0) w' := fun a b c => .step a b c
  refine ⟨_, _, step (op := .newRing 5000)
    (step (op := .mapIf ((Options.new.setOffset 5000).setLen (.exact 3000)) 3) .start ?_ rfl)
    ?_ rfl, ⟨_, rfl, rfl⟩, rfl, rfl⟩
  · exact ⟨trivial, show (3000 : Nat) < _ by decide, show (5000 : Nat) < _ by decide⟩
  · exact ⟨by show (5000 + 4096 : Nat) < _; decide, fun h => by cases h⟩

/-- C93: and each of those runs comes to an end without a panic or fault of its own (the spied
reader or writer does what `R` or `W` does, and remembers the calls). -/
theorem C93_runs {tab : SysTable} {t : Target} {k0 : Kernel} (wf : Wf t k0) {w : World}
    (h : Reach tab t k0 w) {j n : Nat} {r : Ring} (hj : w.held j = some (.ring r n)) (c : Nat)
    (below : n + c * SeqWrite.writeCapacity r < posBound t (SeqWrite.writeCapacity r)) :
    (∀ (R : Reader σ) (b : BufReader (σ × List ReadEvent)) (ops : List RdOp), b.buf = r →
      ops.length = c → ∃ k' b' out, b.execAll R.spy t w.k ops = .ok ((k', b'), out)) ∧
    (∀ (W : Writer σ) (fuel : Nat) (b : BufWriter (σ × List WriteEvent)) (ops : List WrOp),
      b.buf = r → ops.length = c →
      ∃ k' b' acc, b.execAll W.spy t fuel w.k ops = .ok ((k', b'), acc)) := by
  have at_ : RingAt t w.k r n := ((h.inv wf).live j _ hj).1
  constructor
  · intro R b ops hb hc
    subst hb hc
    obtain ⟨q, sp, v⟩ := at_.view
    obtain ⟨k', b', out, n', q', sp', e, -⟩ := rd_run R ops v below
    exact ⟨k', b', out, e⟩
  · intro W fuel b ops hb hc
    subst hb hc
    obtain ⟨q, sp, v⟩ := at_.view
    obtain ⟨k', b', acc, ev, n', q', sp', e, -⟩ := wr_run W fuel ops v below
    exact ⟨k', b', acc, e⟩

example (tab : SysTable) : Wf ⟨.w64, true⟩ (demo 0) ∧
    ∃ (w : World) (b : BufReader (Nat × List ReadEvent)) (k' : Kernel)
    (b' : BufReader (Nat × List ReadEvent)) (out : List Byte),
    Reach tab ⟨.w64, true⟩ (demo 0) w ∧ w.held 1 = some (.ring b.buf 0) ∧
    0 + 3 * SeqWrite.writeCapacity b.buf <
      posBound ⟨.w64, true⟩ (SeqWrite.writeCapacity b.buf) ∧
    b.execAll countReader.spy ⟨.w64, true⟩ w.k [.fillBuf, .consume 1, .read [0, 0]] =
      .ok ((k', b'), out) := by
  refine ⟨demo_wf 0, ?_⟩
  obtain ⟨w, r, h, -, hr, hc⟩ := demo_world tab
  have hb : 0 + 3 * SeqWrite.writeCapacity r < posBound ⟨.w64, true⟩ (SeqWrite.writeCapacity r) := by
    rw [hc]; simp [posBound, Target.lim, Width.bits, lim64]
  obtain ⟨k', b', out, e⟩ := (C93_runs (demo_wf 0) h hr 3 hb).1 countReader ⟨r, (0, []), 0⟩
    [.fillBuf, .consume 1, .read [0, 0]] rfl rfl
  exact ⟨w, _, k', b', out, h, hr, hb, e⟩

example (tab : SysTable) (e : IoError) : Wf ⟨.w64, true⟩ (demo 0) ∧
    ∃ (w : World) (b : BufWriter (Unit × List WriteEvent))
    (k' : Kernel) (b' : BufWriter (Unit × List WriteEvent)) (acc : List Byte),
    Reach tab ⟨.w64, true⟩ (demo 0) w ∧ w.held 1 = some (.ring b.buf 0) ∧
    0 + 2 * SeqWrite.writeCapacity b.buf <
      posBound ⟨.w64, true⟩ (SeqWrite.writeCapacity b.buf) ∧
    b.execAll (failWriter e).spy ⟨.w64, true⟩ 9 w.k [.write [1, 2, 3], .flush] =
      .ok ((k', b'), acc) := by
  refine ⟨demo_wf 0, ?_⟩
  obtain ⟨w, r, h, -, hr, hc⟩ := demo_world tab
  have hb : 0 + 2 * SeqWrite.writeCapacity r < posBound ⟨.w64, true⟩ (SeqWrite.writeCapacity r) := by
    rw [hc]; simp [posBound, Target.lim, Width.bits, lim64]
  obtain ⟨k', b', out, e⟩ := (C93_runs (demo_wf 0) h hr 2 hb).2 (failWriter e) 9
    (.fromParts ((), []) r) [.write [1, 2, 3], .flush] rfl rfl
  exact ⟨w, _, k', b', out, h, hr, hb, e⟩

-- dropping what the program holds, as in the last three theorems
example (tab : SysTable) : Wf ⟨.w64, true⟩ (demo 0) ∧
    ∃ (w : World) (b : BufWriter Unit) (k' : Kernel),
    Reach tab ⟨.w64, true⟩ (demo 0) w ∧ w.held 1 = some (.ring b.buf 0) ∧
    b.drop sinkWriter ⟨.w64, true⟩ 9 w.k = .ok (k', (), .ok ()) ∧
    b.intoInner sinkWriter ⟨.w64, true⟩ 9 w.k = .ok (k', .ok ()) := by
  refine ⟨demo_wf 0, ?_⟩
  refine ⟨_, .fromParts () _, _, .step (op := .newRing 5000) (.step (op := .mapIf
    ((Options.new.setOffset 5000).setLen (.exact 3000)) 3) .start ?_ rfl) ?_ rfl, rfl, rfl, rfl⟩
  · exact ⟨trivial, show (3000 : Nat) < _ by decide, show (5000 : Nat) < _ by decide⟩
  · exact ⟨by show (5000 + 4096 : Nat) < _; decide, fun h => by cases h⟩

end Vmap
