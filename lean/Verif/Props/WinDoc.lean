import Verif.Proofs.WinDoc
import Verif.Proofs.WinBuffer
/-
Property theorems C161 and C162: the examples of the documentation of rings and buffered writers on Windows.
-/
namespace Vmap
open Kernel Spec

section
variable {t : Target} {s : Vmap.Win} {mem : Vmap.Win → Kernel}

/-! ### C161: rings -/

/-- C161: the ring example on Windows, whose allocation granularity is 64 KiB, from `Ring::new(4000)` to the
drop, whatever the state of the process and whatever the system calls do: if the ring cannot be created
it panics (`unwrap`); otherwise it succeeds, and nothing is left of the ring. -/
theorem C161_ring (wf : WinWf t s) (laid : WinLaid t s) (gran : s.gran = 65536) (hm : WinMemory t mem)
    (valid : List Byte → Bool) (hv : AsciiValid valid) (fuel : Nat) (hf : 65536 < 20 * fuel) :
    ∃ s1 res, s.ringNew t 4000 = .ok (s1, res) ∧
      match res with
      | .error _ => Doc.winRing t valid fuel mem s = .error .panic ∧ WinGone s s1
      | .ok _ => ∃ s', Doc.winRing t valid fuel mem s = .ok (some (s', .ok ())) ∧ WinGone s s' := by
  have hlim : 2 ^ 32 ≤ t.lim := by
    rcases t with ⟨w, c⟩; cases w <;> simp [Target.lim, Width.bits]
  obtain ⟨s1, res, e1, bad, good⟩ := winRing_new wf laid (hint := 4000) (by omega) (by omega) hm
  refine ⟨s1, res, e1, ?_⟩
  cases res with
  | error e => exact ⟨by simp only [Doc.winRing, e1, bind, Except.bind], bad e rfl⟩
  | ok r =>
    obtain ⟨-, -, a1, -, cap, gone⟩ := good r rfl
    have hlen : SeqWrite.writeCapacity r = 65536 := by
      rw [gran] at cap; exact usual_capacity (.inr (.inr (.inr (.inr rfl)))) cap
    obtain ⟨k2, r2, n, x, e2, -, hx, -⟩ := C154_ring_body t (mem s1) r a1 a1.empty (by omega) (by omega)
      valid hv fuel (by omega)
    rw [hlen] at hx
    have hx := hx ⟨2897, by decide +kernel⟩
    subst hx
    refine ⟨s1.dropRing t r2, ?_, gone r2 (Doc.ringBody_stays e2)⟩
    simp only [Doc.winRing, e1, bind, Except.bind, e2]
    rfl

/-- C161: the infinite ring example on Windows, as for the ring. -/
theorem C161_infinite (wf : WinWf t s) (laid : WinLaid t s) (gran : s.gran = 65536) (hm : WinMemory t mem)
    (valid : List Byte → Bool) (hv : AsciiValid valid) (fuel : Nat) (hf : 65566 < 20 * fuel) :
    ∃ s1 res, s.infNew t 4000 = .ok (s1, res) ∧
      match res with
      | .error _ => Doc.winInfinite t valid fuel mem s = .error .panic ∧ WinGone s s1
      | .ok _ => ∃ s', Doc.winInfinite t valid fuel mem s = .ok (some (s', .ok ())) ∧ WinGone s s' := by
  have hlim : 2 ^ 32 ≤ t.lim := by
    rcases t with ⟨w, c⟩; cases w <;> simp [Target.lim, Width.bits]
  obtain ⟨s1, res, e1, bad, good⟩ := winInf_new wf laid (hint := 4000) (by omega) (by omega) hm
  refine ⟨s1, res, e1, ?_⟩
  cases res with
  | error e => exact ⟨by simp only [Doc.winInfinite, e1, bind, Except.bind], bad e rfl⟩
  | ok r =>
    obtain ⟨a1, cap, gone⟩ := good r rfl
    have hlen : SeqWrite.writeCapacity r = 65536 := by
      rw [gran] at cap; exact usual_capacity (.inr (.inr (.inr (.inr rfl)))) cap
    obtain ⟨hx, -⟩ := C154_infinite_body t (mem s1) r a1 a1.empty (by omega) (by omega) valid hv fuel (by omega)
    rw [hlen] at hx
    obtain ⟨k2, r2, n, e2, -⟩ := hx ⟨2898, by decide +kernel⟩
    refine ⟨s1.dropInf t r2, ?_, gone r2 (Doc.infiniteBody_stays e2)⟩
    simp only [Doc.winInfinite, e1, bind, Except.bind, e2]
    rfl

/-! ### C162: buffered writers and readers -/

/-- C162: the example of `into_inner` on Windows, for any error kind but `Interrupted`, any limit of the
writer, any capacity and any text shorter than the capacity, whatever the system calls do: if the writer
takes less than the text, `into_inner` fails with the writer's error, and the recovered ring holds
exactly the bytes the writer did not take; if the writer takes all of it, `into_inner` returns it.  In the
end nothing is left of the ring. -/
theorem C162_into_inner (wf : WinWf t s) (laid : WinLaid t s) (hm : WinMemory t mem) {cap : Nat}
    (sane : 2 * (cap + s.gran) < t.lim) {kind : IoKind} (hk : kind ≠ .interrupted) (limit : Nat) (text : List Byte)
    (short : text.length < cap) (fuel : Nat) :
    ∃ s1 res, BufWriter.winNew t s limit cap = .ok (s1, res) ∧
      match res with
      | .error e => WinGone s s1 ∧
        ∀ rest, Doc.winRecover t (fuel + 3) mem s kind limit cap text rest = .ok (s1, .create e)
      | .ok _ =>
        (limit < text.length →
          (∃ s', Doc.winRecover t (fuel + 3) mem s kind limit cap text (text.drop limit) = .ok (s', .ok 0) ∧
            WinGone s s') ∧
          ∀ rest, rest ≠ text.drop limit →
            Doc.winRecover t (fuel + 3) mem s kind limit cap text rest = .error .panic) ∧
        (text.length ≤ limit → ∀ rest, ∃ s',
          Doc.winRecover t (fuel + 3) mem s kind limit cap text rest = .ok (s', .ok (limit - text.length)) ∧
            WinGone s s') := by
  obtain ⟨s1, res, e1, bad, good⟩ := winWriter_new wf laid (by omega) sane hm limit
  refine ⟨s1, res, e1, ?_⟩
  cases res with
  | error e => exact ⟨bad e rfl, fun rest => by simp only [Doc.winRecover, e1, bind, Except.bind]; rfl⟩
  | ok b =>
    obtain ⟨-, -, -, hb, ⟨sp, v, hsp⟩, gone⟩ := good b rfl
    obtain ⟨k2, buf2, sp2, e2, v2, -, l2, p2⟩ :=
      writeAll_short (text := text) (Doc.erring kind) v (by omega) (fuel + 3) (fuel + 1)
    rw [hb] at e2
    rw [hb] at e1
    simp only at e2
    constructor
    · intro hlt
      obtain ⟨buf3, sp3, e3, v3, st3⟩ := flush_erring_short hk v2 hlt fuel
      have hkk : Doc.assert (decide ((IoError.ofKind kind).kind = kind)) = .ok () :=
        Doc.assert_true (decide_eq_true rfl)
      have hat : Doc.assert true = .ok () := rfl
      constructor
      · refine ⟨s1.dropRing t buf3, ?_, gone _ (Ring.Stays.trans ⟨p2, l2⟩ st3)⟩
        simp only [Doc.winRecover, e1, bind, Except.bind, e2, BufWriter.winIntoInner, e3, pure, Except.pure,
          BufWriter.intoParts, hkk, v3.readSlice, decide_true, hat]
      · intro rest hr
        simp only [Doc.winRecover, e1, bind, Except.bind, e2, BufWriter.winIntoInner, e3, pure, Except.pure,
          BufWriter.intoParts, hkk, v3.readSlice,
          Doc.assert_false (decide_eq_false (fun h => hr (Eq.symm h)))]
    · intro hle rest
      obtain ⟨buf3, e3, st3⟩ := flush_erring_all (kind := kind) v2 hle fuel
      refine ⟨s1.dropRing t buf3, ?_, gone _ (Ring.Stays.trans ⟨p2, l2⟩ st3)⟩
      simp only [Doc.winRecover, e1, bind, Except.bind, e2, BufWriter.winIntoInner, e3, pure, Except.pure,
        BufWriter.intoParts]

/-- C162: the example of `into_parts` on Windows, for any capacity and any text shorter than the capacity. -/
theorem C162_into_parts (wf : WinWf t s) (laid : WinLaid t s) (hm : WinMemory t mem) {cap : Nat}
    (sane : 2 * (cap + s.gran) < t.lim) (text : List Byte) (short : text.length < cap) (fuel : Nat) :
    ∃ s1 res, BufWriter.winNew t s () cap = .ok (s1, res) ∧
      match res with
      | .error e => WinGone s s1 ∧ Doc.winUnwind t (fuel + 2) mem s cap text = .ok (s1, .create e)
      | .ok _ =>
        (text ≠ [] → ∃ s', Doc.winUnwind t (fuel + 2) mem s cap text = .ok (s', .ok ()) ∧ WinGone s s') ∧
        (text = [] → Doc.winUnwind t (fuel + 2) mem s cap text = .error .panic) := by
  obtain ⟨s1, res, e1, bad, good⟩ := winWriter_new wf laid (by omega) sane hm ()
  refine ⟨s1, res, e1, ?_⟩
  cases res with
  | error e => exact ⟨bad e rfl, by simp only [Doc.winUnwind, e1, bind, Except.bind]; rfl⟩
  | ok b =>
    obtain ⟨-, -, -, hb, ⟨sp, v, hsp⟩, gone⟩ := good b rfl
    obtain ⟨k2, buf2, sp2, e2, v2, -, l2, p2⟩ :=
      writeAll_short (text := text) Doc.panicking v (by omega) (fuel + 2) fuel
    rw [hb] at e2
    rw [hb] at e1
    simp only at e2
    have hat : Doc.assert true = .ok () := rfl
    have hw (s : Unit) (d : List Byte) : Doc.panicking.write s d = ((), .panic) := rfl
    have hfl (s : Unit) : Doc.panicking.flush s = ((), .panic) := rfl
    constructor
    · intro hne
      have h0 : (text.length == 0) = false := by simpa using hne
      refine ⟨s1.dropRing t buf2, ?_, gone _ ⟨p2, l2⟩⟩
      simp only [Doc.winUnwind, e1, bind, Except.bind, e2, BufWriter.flush, BufWriter.flushBuf,
        v2.isEmpty_eq, h0, Bool.false_eq_true, if_false, BufWriter.buffered, v2.readSlice, hw, pure,
        Except.pure, hat, BufWriter.intoParts, decide_true]
    · rintro rfl
      simp only [Doc.winUnwind, e1, bind, Except.bind, e2, BufWriter.flush, BufWriter.flushBuf,
        v2.isEmpty_eq, List.length_nil, beq_self_eq_true, if_true, pure, Except.pure, hfl, hat,
        BufWriter.intoParts]

/-- C162: a buffered writer on Windows, with any inner writer, given any text shorter than its capacity and
then dropped: the inner writer gets a prefix of the text — the whole of it if the drop ends without a
panic and the inner writer refuses nothing — and nothing is left of the ring, also if the inner writer
panics. -/
theorem C162_drop {σ : Type} (W : Writer σ) (wf : WinWf t s) (laid : WinLaid t s) (hm : WinMemory t mem) {cap : Nat}
    (sane : 2 * (cap + s.gran) < t.lim) (i0 : σ) (text : List Byte) (short : text.length < cap) (fuel : Nat) :
    ∃ s1 res, BufWriter.winNew t s (i0, ([] : List WriteEvent)) cap = .ok (s1, res) ∧
      ∀ b, res = .ok b → ∃ k2 b2, b.writeAll W.spy t (fuel + 2) (fuel + 2) (mem s1) text = .ok (k2, b2, [], .ok ()) ∧
        ∃ s' inner x, b2.winDrop W.spy t (fuel + 2) s1 k2 = .ok (s', inner, x) ∧
          (∃ lost, received inner.2 ++ lost = text ∧
            (lost = [] ∨ x = .pending ∨ ∃ before r, inner.2 = before ++ [.write lost r] ∧
              (r = .ok 0 ∨ (∃ e, r = .err e ∧ e.kind ≠ .interrupted) ∨ (r = .panic ∧ x = .unwound)))) ∧
          (x ≠ .pending → WinGone s s') ∧ (x = .pending → s' = s1) := by
  obtain ⟨s1, res, e1, bad, good⟩ := winWriter_new wf laid (by omega) sane hm (i0, ([] : List WriteEvent))
  refine ⟨s1, res, e1, ?_⟩
  rintro b rfl
  obtain ⟨-, -, -, hb, ⟨sp, v, hsp⟩, gone⟩ := good b rfl
  obtain ⟨k2, buf2, sp2, e2, v2, -, l2, p2⟩ := writeAll_short (text := text) W.spy v (by omega) (fuel + 2) fuel
  refine ⟨k2, _, e2, ?_⟩
  have hp : ({ b with buf := buf2 } : BufWriter _).panicked = false := by rw [hb]
  have hi : ({ b with buf := buf2 } : BufWriter _).inner.2 = [] := by rw [hb]
  obtain ⟨inner, x, ev, e3, lg, -, fl⟩ := lastFlush_view (b := { b with buf := buf2 }) W v2 (fuel + 2)
  obtain ⟨q', y, fl, hy⟩ := fl hp
  rw [hi, List.nil_append] at lg
  have hs := fl.split
  simp only [BufWriter.winDrop, e3, bind, Except.bind]
  have lost : received inner.2 ++ q' = text ∧ (q' = [] ∨ x = .pending ∨ ∃ before r,
      inner.2 = before ++ [.write q' r] ∧
        (r = .ok 0 ∨ (∃ e, r = .err e ∧ e.kind ≠ .interrupted) ∨ (r = .panic ∧ x = .unwound))) := by
    refine ⟨by rw [lg, ← hs], ?_⟩
    cases fl with
    | done all => exact .inl rfl
    | running part all => exact .inr (.inl hy)
    | stopped r part left why =>
      refine .inr (.inr ⟨_, r, lg, ?_⟩)
      cases r with
      | ok n => exact .inl (by rw [why.1])
      | err e => exact .inr (.inl ⟨e, rfl, why.1⟩)
      | panic =>
        simp only [stopsWith] at why
        subst why
        exact .inr (.inr ⟨rfl, hy⟩)
  have hg := gone buf2 ⟨p2, l2⟩
  cases x with
  | pending => exact ⟨_, _, _, rfl, ⟨q', lost⟩, fun h => absurd rfl h, fun _ => rfl⟩
  | ok u => exact ⟨_, _, _, rfl, ⟨q', lost⟩, fun _ => hg, fun h => by cases h⟩
  | err u => exact ⟨_, _, _, rfl, ⟨q', lost⟩, fun _ => hg, fun h => by cases h⟩
  | unwound => exact ⟨_, _, _, rfl, ⟨q', lost⟩, fun _ => hg, fun h => by cases h⟩

/-- C162: a buffered writer on Windows, with any inner writer, given any text shorter than its capacity and
then asked for the inner writer.  If it is returned, it has got the whole text; if it panics, it has got a
prefix of it; in both cases nothing is left of the ring.  If it refuses, the buffered writer comes back,
with the ring, in which is what is missing, and without the panic flag. -/
theorem C162_into_inner_any {σ : Type} (W : Writer σ) (wf : WinWf t s) (laid : WinLaid t s) (hm : WinMemory t mem)
    {cap : Nat} (sane : 2 * (cap + s.gran) < t.lim) (i0 : σ) (text : List Byte) (short : text.length < cap)
    (fuel : Nat) :
    ∃ s1 res, BufWriter.winNew t s (i0, ([] : List WriteEvent)) cap = .ok (s1, res) ∧
      ∀ b, res = .ok b → ∃ k2 b2, b.writeAll W.spy t (fuel + 2) (fuel + 2) (mem s1) text = .ok (k2, b2, [], .ok ()) ∧
        ∃ s' out, b2.winIntoInner W.spy t (fuel + 2) s1 k2 = .ok (s', out) ∧
          match out with
          | .ok inner => received inner.2 = text ∧ WinGone s s'
          | .err b' e => s' = s1 ∧ e.kind ≠ .interrupted ∧ b'.panicked = false ∧
            ∃ rest, rest ≠ [] ∧ received b'.inner.2 ++ rest = text ∧ b'.buffered t k2 = .ok rest ∧
              WinGone s (s'.dropRing t b'.buf)
          | .unwound inner => (∃ rest before, received inner.2 ++ rest = text ∧
              inner.2 = before ++ [.write rest .panic]) ∧ WinGone s s'
          | .pending b' => s' = s1 ∧ fuel + 2 ≤ text.length + refused b'.inner.2 := by
  obtain ⟨s1, res, e1, bad, good⟩ := winWriter_new wf laid (by omega) sane hm (i0, ([] : List WriteEvent))
  refine ⟨s1, res, e1, ?_⟩
  rintro b rfl
  obtain ⟨-, -, -, hb, ⟨sp, v, hsp⟩, gone⟩ := good b rfl
  obtain ⟨k2, buf2, sp2, e2, v2, -, l2, p2⟩ := writeAll_short (text := text) W.spy v (by omega) (fuel + 2) fuel
  refine ⟨k2, _, e2, ?_⟩
  have hi : ({ b with buf := buf2 } : BufWriter _).inner.2 = [] := by rw [hb]
  obtain ⟨b1, y, ev, q1, sp1, e3, v3, l3, p3, lg, fl, pk⟩ := flush_view (b := { b with buf := buf2 }) W (fuel + 2) v2
  rw [hi, List.nil_append] at lg
  have hs := fl.split
  have hg := gone b1.buf (Ring.Stays.trans ⟨p2, l2⟩ ⟨p3, l3⟩)
  simp only [BufWriter.winIntoInner, e3, bind, Except.bind]
  generalize hx : y = x at fl
  cases fl with
  | done all =>
    subst hx
    refine ⟨_, _, rfl, ?_, hg⟩
    simp only [BufWriter.intoParts]
    rw [lg, hs, List.append_nil]
  | stopped r part left why =>
    cases r with
    | ok m =>
      simp only [stopsWith] at why
      obtain ⟨w1, w2⟩ := why
      subst w2 hx
      exact ⟨_, _, rfl, rfl, by simp [IoError.ofKind], by rw [pk]; simp [flagAfter], q1, left,
        by rw [lg, ← hs], v3.readSlice, hg⟩
    | err er =>
      simp only [stopsWith] at why
      obtain ⟨w1, w2⟩ := why
      subst w2 hx
      exact ⟨_, _, rfl, rfl, w1, by rw [pk]; simp [flagAfter], q1, left,
        by rw [lg, ← hs], v3.readSlice, hg⟩
    | panic =>
      simp only [stopsWith] at why
      subst why hx
      have hp : b1.panicked = true := by rw [pk]; simp [flagAfter]
      simp only [BufWriter.winDrop, BufWriter.lastFlush, hp, if_true, bind, Except.bind, pure, Except.pure]
      exact ⟨_, _, rfl, ⟨q1, _, by rw [lg, ← hs], lg⟩, hg⟩
  | running part all =>
    subst hx
    refine ⟨_, _, rfl, rfl, ?_⟩
    have := part.rounds
    rw [lg]
    omega

/-- C162: the example of `BufWriter` and `BufReader` at the two ends of a socket on Windows, for any
capacity, any text shorter than the capacity that has a line, and whatever pieces the two sockets cut it
into: the line that `read_line` returns is the first line of the text.  If one of the two buffers cannot
be created, the program panics (`unwrap`). -/
theorem C162_socket (wf : WinWf t s) (laid : WinLaid t s) (hm : WinMemory t mem) {cap : Nat}
    (sane : 2 * (cap + s.gran) < t.lim) (valid : List Byte → Bool) (take take' : Nat → Nat)
    (line rest : List Byte) (one : 10 ∉ line) (utf8 : valid (line ++ [10]) = true)
    (short : (line ++ 10 :: rest).length < cap) (fuel : Nat) (enough : (line ++ 10 :: rest).length + 2 ≤ fuel) :
    ∃ s1 res, BufWriter.winNew t s (σ := Nat × List Byte) (0, []) cap = .ok (s1, res) ∧
      match res with
      | .error _ => ∀ expect,
        Doc.winRelay t fuel mem s valid take take' cap (line ++ 10 :: rest) expect = .error .panic
      | .ok _ => ∃ s2 res2, BufReader.winNew t s1 (σ := Nat × List Byte) (0, line ++ 10 :: rest) cap = .ok (s2, res2) ∧
        match res2 with
        | .error _ => ∀ expect,
          Doc.winRelay t fuel mem s valid take take' cap (line ++ 10 :: rest) expect = .error .panic
        | .ok _ =>
          Doc.winRelay t fuel mem s valid take take' cap (line ++ 10 :: rest) (line ++ [10]) =
            .ok (s2, .ok (.ok (line.length + 1))) ∧
          ∀ expect, expect ≠ line ++ [10] →
            Doc.winRelay t fuel mem s valid take take' cap (line ++ 10 :: rest) expect = .error .panic := by
  obtain ⟨s1, res, e1, -, good⟩ := winWriter_new wf laid (by omega) sane hm ((0, []) : Nat × List Byte)
  refine ⟨s1, res, e1, ?_⟩
  cases res with
  | error e => intro expect; simp only [Doc.winRelay, e1, bind, Except.bind]
  | ok b =>
    obtain ⟨wf1, laid1, hg, hb, ⟨sp, v, hsp⟩, -⟩ := good b rfl
    obtain ⟨f, rfl⟩ : ∃ f, fuel = f + 2 := ⟨fuel - 2, by omega⟩
    obtain ⟨k2, buf2, sp2, e2, v2, -, -, -⟩ :=
      writeAll_short (text := line ++ 10 :: rest) (Doc.sender take) v (by omega) (f + 2) f
    obtain ⟨buf3, i3, sp3, e3, v3⟩ := flush_sender take (f + 2) buf2 _ _ _ 0 [] v2 (by omega)
    rw [hb] at e2
    rw [hb] at e1
    simp only at e2
    have hfl : (BufWriter.flush (Doc.sender take) t (f + 2) k2 ⟨buf2, (0, []), false⟩) =
        .ok (⟨buf3, (i3, line ++ 10 :: rest), false⟩, .ok ()) := by
      have hs (x : Nat × List Byte) : (Doc.sender take).flush x = (x, .ok) := rfl
      simp only [BufWriter.flush, e3, bind, Except.bind, hs, pure, Except.pure, List.nil_append]
    obtain ⟨s2, res2, e4, -, good2⟩ := winRing_new wf1 laid1 (hint := cap) (by omega) (by rw [hg]; exact sane) hm
    cases res2 with
    | error e =>
      have e5 : BufReader.winNew t s1 ((0, line ++ 10 :: rest) : Nat × List Byte) cap = .ok (s2, .error e) := by
        simp only [BufReader.winNew, e4, bind, Except.bind, pure, Except.pure]
      refine ⟨s2, .error e, e5, ?_⟩
      intro expect
      simp only [Doc.winRelay, e1, bind, Except.bind, e2, hfl, e5]
    | ok r =>
      have e5 : BufReader.winNew t s1 ((0, line ++ 10 :: rest) : Nat × List Byte) cap =
          .ok (s2, .ok ⟨r, (0, line ++ 10 :: rest), 0⟩) := by
        simp only [BufReader.winNew, e4, bind, Except.bind, pure, Except.pure]
      refine ⟨s2, .ok _, e5, ?_⟩
      obtain ⟨-, -, a1, -, hcap, -⟩ := good2 r rfl
      obtain ⟨q5, sp5, v5⟩ := a1.view
      have hq := a1.empty
      rw [v5.fillBuf] at hq
      injection hq with hq
      subst hq
      have hc : cap ≤ r.len := hcap.2.1
      have hl5 := v5.len
      simp only [List.length_nil] at hl5
      have hql : (line ++ 10 :: rest).length = line.length + 1 + rest.length := by simp; omega
      have hroom : 0 + (line.length + 1 + rest.length) < posBound t r.len := by
        obtain ⟨o, rep⟩ := v5.rep
        have := rep.mirror.fits
        have := t.lim_le_64
        unfold posBound
        split <;> omega
      obtain ⟨k6, b6, e6⟩ := readUntil_receiver take' 10 (f + 2) (mem s2) r 0 _ 0 [] line rest v5 one
        (by omega) hroom
      have hrl : BufReader.readLine (Doc.receiver take') t valid (f + 2) (mem s2)
          ⟨r, (0, line ++ 10 :: rest), 0⟩ [] =
          .ok (k6, b6, line ++ [10], .ok (line.length + 1)) := by
        simp only [BufReader.readLine, e6, bind, Except.bind, List.nil_append, utf8, if_true, pure,
          Except.pure, List.length_append, List.length_cons, List.length_nil]
      have hat : Doc.assert true = .ok () := rfl
      constructor
      · simp only [Doc.winRelay, e1, bind, Except.bind, e2, hfl, e5, hrl, decide_true, hat, pure, Except.pure]
      · intro expect hne
        simp only [Doc.winRelay, e1, bind, Except.bind, e2, hfl, e5, hrl,
          Doc.assert_false (decide_eq_false (fun h => hne (Eq.symm h)))]

end

theorem winDoc_ring : ∃ s' r, (winDemo []).ringNew ⟨.w64, true⟩ 4000 = .ok (s', .ok r) := by
  have h : ((winDemo []).ringNew ⟨.w64, true⟩ 4000).map (·.2) = .ok (.ok ⟨68157440, 65536, 0, 0⟩) := by
    decide +kernel
  cases hx : (winDemo []).ringNew ⟨.w64, true⟩ 4000 with
  | error f => rw [hx] at h; cases h
  | ok x =>
    rw [hx] at h
    injection h with h
    exact ⟨x.1, _, by rw [← h]⟩

-- a process on Windows in which the ring can be created, a memory for it, and a UTF-8 predicate
example : ∃ s' r mem, WinWf ⟨.w64, true⟩ (winDemo []) ∧ WinLaid ⟨.w64, true⟩ (winDemo []) ∧
    (winDemo []).gran = 65536 ∧ WinMemory ⟨.w64, true⟩ mem ∧ AsciiValid (fun l => l.all (· < 128)) ∧
    (winDemo []).ringNew ⟨.w64, true⟩ 4000 = .ok (s', .ok r) := by
  obtain ⟨mem, hm⟩ := winMemory_exists ⟨.w64, true⟩
  obtain ⟨s', r, h⟩ := winDoc_ring
  exact ⟨s', r, mem, winDemo_wf [], winDemo_laid [], rfl, hm, fun l hl => by simpa using hl, h⟩

-- one in which it cannot
example : ∃ s' e, (winDemo [0]).ringNew ⟨.w64, true⟩ 4000 = .ok (s', .error e) := ⟨_, _, rfl⟩

-- the examples as documented: "hello\nworld\n" with a limit of 6 leaves "world\n"
example : ([104, 101, 108, 108, 111, 10, 119, 111, 114, 108, 100, 10] : List Byte).drop 6 =
    [119, 111, 114, 108, 100, 10] ∧ 2 * (4096 + (winDemo []).gran) < (⟨.w32, false⟩ : Target).lim ∧
    (IoKind.other 0) ≠ .interrupted ∧
    ∃ s b, BufWriter.winNew ⟨.w64, true⟩ (winDemo []) 6 4000 = .ok (s, .ok b) := by
  obtain ⟨s', r, h⟩ := winDoc_ring
  exact ⟨rfl, by decide +kernel, by decide, s', _, by simp only [BufWriter.winNew, h, bind, Except.bind]; rfl⟩

-- a buffered writer whose inner writer panics, and a text that fits
example : ∃ s b mem, BufWriter.winNew ⟨.w64, true⟩ (winDemo []) ((), ([] : List WriteEvent)) 4000 = .ok (s, .ok b) ∧
    WinMemory ⟨.w64, true⟩ mem ∧ ([104, 105] : List Byte).length < 4000 ∧
    (Doc.panicking.spy.write ((), []) [104, 105]).2 = .panic := by
  obtain ⟨mem, hm⟩ := winMemory_exists ⟨.w64, true⟩
  obtain ⟨s', r, h⟩ := winDoc_ring
  exact ⟨s', _, mem, by simp only [BufWriter.winNew, h, bind, Except.bind]; rfl, hm, by decide, rfl⟩

-- a text with a line
example : (10 : Byte) ∉ ([104, 101, 108, 108, 111] : List Byte) ∧
    ([104, 101, 108, 108, 111] ++ 10 :: [119, 10] : List Byte).length < 4000 := by decide +kernel

end Vmap
