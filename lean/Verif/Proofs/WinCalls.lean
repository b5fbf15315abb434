import Verif.Spec.WinCalls
import Verif.Proofs.WinBytes
import Verif.Props.WinWorld
/-
Helper lemmas for C139: the calls of each function on Windows.
-/
namespace Vmap
open Spec

theorem Spec.WinDid.none (s : Vmap.Win) : WinDid s s [] := rfl

theorem Spec.WinDid.trans {a b c : Vmap.Win} {es fs : List WinCall} (h : WinDid a b es) (h' : WinDid b c fs) :
    WinDid a c (es ++ fs) := by
  unfold WinDid at *
  rw [h', h, List.reverse_append, List.append_assoc]

theorem WinDid.log {a b : Vmap.Win} (h : b.log = a.log) : WinDid a b [] := h

theorem win_did_one {a b : Vmap.Win} {c : WinCall} (h : b.log = c :: a.log) : WinDid a b [c] := h

namespace Win

theorem split_div (n : Nat) : Split n (n / 2 ^ 32) (n % 2 ^ 32) := ⟨halves n, Nat.mod_lt _ (by decide)⟩

theorem createFileMapping_did (s : Win) (file : Option Nat) (prot : WinProt) (hi lo : Nat) :
    WinDid s (s.createFileMapping file prot hi lo).1 [.createFileMapping file prot hi lo] := by
  unfold createFileMapping
  dsimp only
  split <;> rfl

theorem mapViewOfFileEx_did (t : Target) (s : Win) (h : Nat) (access : WinAccess) (hi lo len at' : Nat) :
    WinDid s (s.mapViewOfFileEx t h access hi lo len at').1 [.mapViewOfFileEx h access hi lo len at'] := by
  unfold mapViewOfFileEx
  dsimp only
  split
  · rfl
  · generalize (if len = 0 then _ else len) = n
    generalize (if at' = 0 then _ else at') = base
    split <;> rfl

theorem unmapViewOfFile_did (s : Win) (a : Nat) : WinDid s (s.unmapViewOfFile a).1 [.unmapViewOfFile a] := by
  unfold unmapViewOfFile
  dsimp only
  split <;> rfl

theorem handleNew_did {t : Target} {s s' : Win} {op : Operation} {file : Option Nat} {prot : WinProt} {len : Nat}
    {r : Result Nat} (hl : len < t.lim) (h : s.handleNew t op file prot len = .ok (s', r)) :
    WinDid s s' [.createFileMapping file prot (len / 2 ^ 32) (len % 2 ^ 32)] := by
  simp only [handleNew, hi32_eq hl, lo32_eq, bind, Except.bind] at h
  have := s.createFileMapping_did file prot (len / 2 ^ 32) (len % 2 ^ 32)
  split at h <;> rename_i he <;> cases h <;> rw [he] at this <;> exact this

theorem view_did {t : Target} {s s' : Win} {h : Nat} {op : Operation} {access : WinAccess} {off len at' : Nat}
    {r : Result Nat} (ho : off < t.lim) (hv : s.view t h op access off len at' = .ok (s', r)) :
    WinDid s s' [.mapViewOfFileEx h access (off / 2 ^ 32) (off % 2 ^ 32) len at'] := by
  simp only [view, hi32_eq ho, lo32_eq, bind, Except.bind] at hv
  have := s.mapViewOfFileEx_did t h access (off / 2 ^ 32) (off % 2 ^ 32) len at'
  split at hv <;> rename_i he <;> cases hv <;> rw [he] at this <;> exact this

theorem mapFileBits_asks (p : Protect) : WinAsks p (mapFileBits p).1 (mapFileBits p).2 := by
  cases p <;> constructor

theorem mapAnonBits_asks (p : Protect) : WinAsks p (mapAnonBits p).1 (mapAnonBits p).2 := by
  cases p <;> constructor

theorem mapFile_did {t : Target} {s s' : Win} {file off len : Nat} {p : Protect} {r : Result Nat} (ho : off < t.lim)
    (hm : s.mapFile t file off len p = .ok (s', r)) :
    ∃ cs, WinDid s s' cs ∧ ViewCalls (some file) p 0 off len r.toBool cs := by
  simp only [mapFile, bind, Except.bind] at hm
  split at hm
  · cases hm
  rename_i x hx
  obtain ⟨s1, r1⟩ := x
  have d1 := handleNew_did (by omega) hx
  cases r1 with
  | error e =>
    cases hm
    exact ⟨_, d1, _, _, _, _, _, _, 0, mapFileBits_asks p, split_div 0, split_div off, .inl ⟨rfl, rfl⟩⟩
  | ok h =>
    dsimp only at hm
    split at hm
    · cases hm
    rename_i y hy
    obtain ⟨s2, r2⟩ := y
    cases hm
    have d2 := view_did ho hy
    have d3 : WinDid s2 (s2.dropHandle h) [.closeHandle h] := rfl
    exact ⟨_, (d1.trans d2).trans d3, _, _, _, _, _, _, h, mapFileBits_asks p, split_div 0, split_div off, .inr rfl⟩

theorem mapAnon_did {t : Target} {s s' : Win} {len : Nat} {p : Protect} {r : Result Nat} (ho : len < t.lim)
    (hm : s.mapAnon t len p = .ok (s', r)) :
    ∃ cs, WinDid s s' cs ∧ ViewCalls none p len 0 len r.toBool cs := by
  simp only [mapAnon, bind, Except.bind] at hm
  split at hm
  · cases hm
  rename_i x hx
  obtain ⟨s1, r1⟩ := x
  have d1 := handleNew_did ho hx
  cases r1 with
  | error e =>
    cases hm
    exact ⟨_, d1, _, _, _, _, _, _, 0, mapAnonBits_asks p, split_div len, split_div 0, .inl ⟨rfl, rfl⟩⟩
  | ok h =>
    dsimp only at hm
    split at hm
    · cases hm
    rename_i y hy
    obtain ⟨s2, r2⟩ := y
    cases hm
    have d2 := view_did (by omega) hy
    have d3 : WinDid s2 (s2.dropHandle h) [.closeHandle h] := rfl
    exact ⟨_, (d1.trans d2).trans d3, _, _, _, _, _, _, h, mapAnonBits_asks p, split_div len, split_div 0, .inr rfl⟩

theorem reserve_did {t : Target} {s s' : Win} {len : Nat} {r : Result Nat} (h : s.reserve t len = (s', r)) :
    (∃ e, r = .error e ∧ WinDid s s' [.virtualAlloc len]) ∨
    (∃ pg, r = .ok pg ∧ pg + s.roundPage len < t.lim ∧ s'.page = s.page ∧
      WinDid s s' [.virtualAlloc len, .virtualFree pg]) := by
  simp only [reserve, virtualAlloc] at h
  by_cases hc : s.choice.ok = true ∧ s.choice.addr ≠ 0 ∧ s.choice.addr % s.gran = 0 ∧
      s.choice.addr + s.roundPage len < t.lim ∧ s.free s.choice.addr len = true
  · rw [if_pos hc] at h
    cases h
    exact .inr ⟨_, rfl, hc.2.2.2.1, rfl, rfl⟩
  · rw [if_neg hc] at h
    cases h
    exact .inl ⟨_, rfl, rfl⟩

theorem createFileMapping_page (s : Win) (file : Option Nat) (prot : WinProt) (hi lo : Nat) :
    (s.createFileMapping file prot hi lo).1.page = s.page := by
  unfold createFileMapping
  dsimp only
  split <;> rfl

theorem mapViewOfFileEx_page (t : Target) (s : Win) (h : Nat) (access : WinAccess) (hi lo len at' : Nat) :
    (s.mapViewOfFileEx t h access hi lo len at').1.page = s.page := by
  unfold mapViewOfFileEx
  dsimp only
  split
  · rfl
  · generalize (if len = 0 then _ else len) = n
    generalize (if at' = 0 then _ else at') = base
    split <;> rfl

theorem unmapViewOfFile_page (s : Win) (a : Nat) : (s.unmapViewOfFile a).1.page = s.page := by
  unfold unmapViewOfFile
  dsimp only
  split <;> rfl

theorem view_page {t : Target} {s s' : Win} {h : Nat} {op : Operation} {access : WinAccess} {off len at' : Nat}
    {r : Result Nat} (ho : off < t.lim) (hv : s.view t h op access off len at' = .ok (s', r)) : s'.page = s.page := by
  simp only [view, hi32_eq ho, lo32_eq, bind, Except.bind] at hv
  have := s.mapViewOfFileEx_page t h access (off / 2 ^ 32) (off % 2 ^ 32) len at'
  split at hv <;> rename_i he <;> cases hv <;> rw [he] at this <;> exact this

/-- A view at a place that is asked for is there. -/
theorem view_at {t : Target} {s s' : Win} {h : Nat} {op : Operation} {access : WinAccess} {off len at' a : Nat}
    (ho : off < t.lim) (hv : s.view t h op access off len at' = .ok (s', .ok a)) (h0 : at' ≠ 0) : a = at' := by
  simp only [view, hi32_eq ho, lo32_eq, bind, Except.bind] at hv
  split at hv
  · cases hv
  · rename_i he
    cases hv
    unfold mapViewOfFileEx at he
    dsimp only at he
    split at he
    · cases he
    · generalize (if len = 0 then _ else len) = n at he
      rw [if_neg h0] at he
      split at he <;> cases he
      rfl

/-- The room that was found does not begin at zero (helper). -/
theorem reserve_pos {t : Target} {s s' : Win} {len pg : Nat} (h : s.reserve t len = (s', .ok pg)) : pg ≠ 0 := by
  simp only [reserve, virtualAlloc] at h
  split at h
  · cases h
  · rename_i he
    split at he
    · rename_i hc
      cases he; cases h
      exact hc.2.1
    · cases he

theorem mapRingHandle_did {t : Target} {s s' : Win} {h len pg : Nat} {r : Result Nat} (hl : pg + len < t.lim)
    (h0 : pg ≠ 0) (hm : s.mapRingHandle t h len pg = .ok (s', r)) :
    s'.page = s.page ∧
    ((∃ e, r = .error e ∧ (WinDid s s' [.mapViewOfFileEx h ⟨true, true, false, false⟩ 0 0 len pg] ∨
      WinDid s s' [.mapViewOfFileEx h ⟨true, true, false, false⟩ 0 0 len pg,
        .mapViewOfFileEx h ⟨true, true, false, false⟩ 0 0 len (pg + len), .unmapViewOfFile pg])) ∨
    (r = .ok pg ∧ WinDid s s' [.mapViewOfFileEx h ⟨true, true, false, false⟩ 0 0 len pg,
        .mapViewOfFileEx h ⟨true, true, false, false⟩ 0 0 len (pg + len)])) := by
  have lz : 0 < t.lim := by omega
  simp only [mapRingHandle, bind, Except.bind] at hm
  split at hm
  · cases hm
  rename_i x hx
  obtain ⟨s1, r1⟩ := x
  have d1 := view_did lz hx
  have p1 := view_page lz hx
  cases r1 with
  | error e =>
    cases hm
    exact ⟨p1, .inl ⟨_, rfl, .inl d1⟩⟩
  | ok a =>
    obtain rfl := view_at lz hx h0
    dsimp only at hm
    split at hm
    · cases hm
    rename_i y hy
    obtain ⟨s2, r2⟩ := y
    have d2 := view_did lz hy
    have p2 := view_page lz hy
    have hpa : ptrAdd t a len = a + len := Nat.mod_eq_of_lt hl
    rw [hpa] at d2
    cases r2 with
    | error e =>
      cases hm
      exact ⟨by rw [unmapViewOfFile_page, p2, p1],
        .inl ⟨_, rfl, .inr ((d1.trans d2).trans (s2.unmapViewOfFile_did a))⟩⟩
    | ok b =>
      cases hm
      exact ⟨by rw [p2, p1], .inr ⟨rfl, d1.trans d2⟩⟩

theorem mapRingLoop_did {t : Target} {h len : Nat} : ∀ {left : Nat} {s s' : Win} {r : Result Nat}, 0 < s.page →
    mapRingLoop t left s h len (2 * len) = .ok (s', r) →
    ∃ cs, WinDid s s' cs ∧ RingTries h len (left + 1) r.toBool cs := by
  intro left
  induction left with
  | zero =>
    intro s s' r hp hm
    unfold mapRingLoop at hm
    split at hm
    · rename_i s1 e hr
      cases hm
      rcases reserve_did hr with ⟨e', he, d⟩ | ⟨pg, he, -⟩
      · exact ⟨_, d, .noRoom⟩
      · cases he
    · rename_i s1 pg hr
      rcases reserve_did hr with ⟨e', he, d⟩ | ⟨pg', he, hlt, hpg, d⟩
      · cases he
      cases he
      have hrp := s.roundPage_le hp (2 * len)
      simp only [bind, Except.bind] at hm
      split at hm
      · cases hm
      rename_i x hx
      obtain ⟨s2, r2⟩ := x
      obtain ⟨hpp, ⟨e, rfl, d2 | d2⟩ | ⟨rfl, d2⟩⟩ := mapRingHandle_did (by omega) (reserve_pos hr) hx
      · cases hm
        exact ⟨_, d.trans d2, .last ⟨pg, .inl rfl⟩⟩
      · cases hm
        exact ⟨_, d.trans d2, .last ⟨pg, .inr rfl⟩⟩
      · cases hm
        exact ⟨_, d.trans d2, .done pg⟩
  | succ left ih =>
    intro s s' r hp hm
    unfold mapRingLoop at hm
    split at hm
    · rename_i s1 e hr
      cases hm
      rcases reserve_did hr with ⟨e', he, d⟩ | ⟨pg, he, -⟩
      · exact ⟨_, d, .noRoom⟩
      · cases he
    · rename_i s1 pg hr
      rcases reserve_did hr with ⟨e', he, d⟩ | ⟨pg', he, hlt, hpg, d⟩
      · cases he
      cases he
      have hrp := s.roundPage_le hp (2 * len)
      simp only [bind, Except.bind] at hm
      split at hm
      · cases hm
      rename_i x hx
      obtain ⟨s2, r2⟩ := x
      obtain ⟨hpp, ⟨e, rfl, d2 | d2⟩ | ⟨rfl, d2⟩⟩ := mapRingHandle_did (by omega) (reserve_pos hr) hx
      · obtain ⟨ds, d3, ht⟩ := ih (by rw [hpp, hpg]; exact hp) hm
        exact ⟨_, (d.trans d2).trans d3, .again ⟨pg, .inl rfl⟩ ht⟩
      · obtain ⟨ds, d3, ht⟩ := ih (by rw [hpp, hpg]; exact hp) hm
        exact ⟨_, (d.trans d2).trans d3, .again ⟨pg, .inr rfl⟩ ht⟩
      · cases hm
        exact ⟨_, d.trans d2, .done pg⟩

theorem mapRing_did {t : Target} {s s' : Win} {len : Nat} {r : Result Nat} (hp : 0 < s.page) (hl : 2 * len < t.lim)
    (hm : s.mapRing t len = .ok (s', r)) :
    ∃ cs, WinDid s s' cs ∧ ∃ hi lo, Split (2 * len) hi lo ∧
      (cs = [.createFileMapping none .readwrite hi lo] ∧ r.toBool = false ∨
       ∃ h ds, RingTries h len 6 r.toBool ds ∧
        cs = .createFileMapping none .readwrite hi lo :: ds ++ [.closeHandle h]) := by
  simp only [mapRing, Posix.mulU_ok hl, bind, Except.bind] at hm
  split at hm
  · cases hm
  rename_i x hx
  obtain ⟨s1, r1⟩ := x
  have d1 := handleNew_did hl hx
  have p1 : s1.page = s.page := by
    simp only [handleNew, hi32_eq hl, lo32_eq, bind, Except.bind] at hx
    have := s.createFileMapping_page none .readwrite (2 * len / 2 ^ 32) (2 * len % 2 ^ 32)
    split at hx <;> rename_i he <;> cases hx <;> rw [he] at this <;> exact this
  cases r1 with
  | error e =>
    cases hm
    exact ⟨_, d1, _, _, split_div _, .inl ⟨rfl, rfl⟩⟩
  | ok h =>
    dsimp only at hm
    split at hm
    · cases hm
    rename_i y hy
    obtain ⟨s2, r2⟩ := y
    cases hm
    obtain ⟨ds, d2, ht⟩ := mapRingLoop_did (by rw [p1]; exact hp) hy
    have d3 : WinDid s2 (s2.dropHandle h) [.closeHandle h] := rfl
    exact ⟨_, (d1.trans d2).trans d3, _, _, split_div _, .inr ⟨h, ds, ht, rfl⟩⟩

theorem ioErr_fst {α : Type} (tab : SysTable) (r : Win × Except Nat α) : (ioErr tab r).1 = r.1 := by
  obtain ⟨s, _ | _⟩ := r <;> rfl

theorem fileLen_did (tab : SysTable) (s : Win) (file : Nat) :
    WinDid s (s.fileLen tab file).1 [.getFileInfo file] ∧ (s.fileLen tab file).1.gran = s.gran := by
  unfold fileLen
  dsimp only
  split <;> rw [ioErr_fst] <;> exact ⟨rfl, rfl⟩

theorem setLen_did (tab : SysTable) (s : Win) (file size : Nat) :
    WinDid s (s.setLen tab file size).1 [.setEndOfFile file size] ∧ (s.setLen tab file size).1.gran = s.gran := by
  unfold setLen
  dsimp only
  split
  · exact ⟨rfl, rfl⟩
  · rw [ioErr_fst]; exact ⟨rfl, rfl⟩

/-- A stage of `map_if` that made the calls `cs` and found a length that fits (helper). -/
structure Sizing (t : Target) (s s' : Win) (r : Result Nat) (cs : List WinCall) : Prop where
  did : WinDid s s' cs
  gran : s'.gran = s.gran
  fits : ∀ n, r = .ok n → n < t.lim

theorem resizeFile_did {t : Target} {tab : SysTable} {s s' : Win} {file sz : Nat} {r : Result Nat} (hl : sz < t.lim)
    (h : s.resizeFile tab file sz = (s', r)) : Sizing t s s' r [.setEndOfFile file sz] := by
  have e : asU64 sz = sz := Nat.mod_eq_of_lt (Nat.lt_of_lt_of_le hl (lim_le_lim64 t))
  have := s.setLen_did tab file sz
  unfold resizeFile at h
  rw [e] at h
  split at h <;> rename_i he <;> cases h <;> rw [he] at this
  · exact ⟨this.1, this.2, fun n hn => by cases hn; exact hl⟩
  · exact ⟨this.1, this.2, nofun⟩

theorem truncateStep_did {t : Target} {tab : SysTable} {s s' : Win} {o : Options} {file flen : Nat} {r : Result Nat}
    (hl : flen < t.lim) (h : s.truncateStep tab o file flen = (s', r)) :
    ∃ tr, Sizing t s s' r tr ∧ (tr = [] ∨ o.truncate = true ∧ tr = [.setEndOfFile file 0]) := by
  unfold truncateStep at h
  split at h
  · rename_i hc
    rw [Bool.and_eq_true] at hc
    exact ⟨_, resizeFile_did (by omega) h, .inr ⟨hc.1, rfl⟩⟩
  · cases h
    exact ⟨[], ⟨rfl, rfl, fun n hn => by cases hn; exact hl⟩, .inl rfl⟩

theorem resizeStep_did {t : Target} {tab : SysTable} {s s' : Win} {o : Options} {file flen : Nat} {r : Result Nat} (hf : Fits t o)
    (hl : flen < t.lim) (h : s.resizeStep tab o file flen = (s', r)) :
    ∃ rs, Sizing t s s' r rs ∧ (rs = [] ∨ ∃ n, (o.resize = .exact n ∨ o.resize = .min n ∨ o.resize = .max n) ∧
      rs = [.setEndOfFile file n]) := by
  have hr := hf.resize
  have stay : Sizing t s s (.ok flen) [] := ⟨rfl, rfl, fun n hn => by cases hn; exact hl⟩
  obtain ⟨x, hx⟩ : ∃ x, o.resize = x := ⟨_, rfl⟩
  unfold resizeStep at h
  rw [hx] at h hr
  cases x with
  | endOf => cases h; exact ⟨[], stay, .inl rfl⟩
  | exact n => exact ⟨_, resizeFile_did hr h, .inr ⟨n, .inl hx, rfl⟩⟩
  | min n =>
    dsimp only at h
    split at h
    · exact ⟨_, resizeFile_did hr h, .inr ⟨n, .inr (.inl hx), rfl⟩⟩
    · cases h; exact ⟨[], stay, .inl rfl⟩
  | max n =>
    dsimp only at h
    split at h
    · exact ⟨_, resizeFile_did hr h, .inr ⟨n, .inr (.inr hx), rfl⟩⟩
    · cases h; exact ⟨[], stay, .inl rfl⟩

/-- Was a map made? (helper) -/
def made : Result (Option MapMut) → Bool
  | .ok (some _) => true
  | _ => false

theorem mapStep_did {t : Target} {s s' : Win} {b : Nat} (hb : s.gran = 2 ^ b) (hbits : b < t.width.bits) {o : Options}
    {file flen : Nat} {r : Result (Option MapMut)} (hf : Fits t o) (hl : flen < t.lim)
    (h : s.mapStep t o file flen = .ok (s', r)) :
    ∃ mp, WinDid s s' mp ∧ (mp = [] ∧ made r = false ∨
      ∃ len, o.offset % s.gran ≤ len ∧
        ViewCalls (some file) o.protect 0 (o.offset / s.gran * s.gran) len (made r) mp) := by
  have ho := hf.offset
  unfold mapStep at h
  dsimp only at h
  split at h
  · cases h; exact ⟨[], rfl, .inl ⟨rfl, rfl⟩⟩
  rename_i hof
  simp only [subU_ok (show o.offset ≤ flen by omega), bind, Except.bind] at h
  split at h
  · cases h; exact ⟨[], rfl, .inl ⟨rfl, rfl⟩⟩
  rename_i len hlen
  have hle : len ≤ flen - o.offset := by
    unfold Options.mapLen at hlen
    split at hlen
    · split at hlen <;> cases hlen; omega
    · split at hlen <;> cases hlen; omega
    · cases hlen; omega
    · cases hlen; exact Nat.min_le_right _ _
  have hdiv : o.offset / 2 ^ b * 2 ^ b ≤ o.offset := Nat.div_mul_le_self _ _
  have hmod : o.offset - o.offset / 2 ^ b * 2 ^ b = o.offset % 2 ^ b := by
    have := Nat.div_add_mod o.offset (2 ^ b)
    rw [Nat.mul_comm] at this
    omega
  simp only [sizeAlloc, systemInfo, hb, truncate_eq hbits ho, subU_ok hdiv,
    addU_ok (show len + (o.offset - o.offset / 2 ^ b * 2 ^ b) < t.lim by omega)] at h
  split at h
  · cases h
  rename_i x hx
  obtain ⟨s1, r1⟩ := x
  obtain ⟨cs, d, v⟩ := mapFile_did (by omega) hx
  refine ⟨cs, ?_, .inr ⟨len + (o.offset - o.offset / 2 ^ b * 2 ^ b), by rw [hb]; omega, ?_⟩⟩
  · cases r1 <;> cases h <;> exact d
  · rw [hb]
    cases r1 <;> cases h <;> exact v

theorem mapIf_did {t : Target} {tab : SysTable} {s s' : Win} {b : Nat} (hb : s.gran = 2 ^ b) (hbits : b < t.width.bits)
    {o : Options} {file : Nat} {r : Result (Option MapMut)} (hf : Fits t o)
    (h : s.mapIf tab t o file = .ok (s', r)) :
    ∃ cs, WinDid s s' cs ∧ WinFileCalls s.gran o file (made r) cs := by
  have d0 := s.fileLen_did tab file
  unfold mapIf at h
  split at h
  · rename_i s1 e he
    cases h
    rw [he] at d0
    exact ⟨_, d0.1, [], [], [], rfl, .inl rfl, .inl rfl, .inl ⟨rfl, rfl⟩⟩
  rename_i s1 n he
  rw [he] at d0
  have hn : asUsize t n < t.lim := Nat.mod_lt _ t.lim_pos
  split at h
  · rename_i s2 e he2
    cases h
    obtain ⟨tr, z, ht⟩ := truncateStep_did hn he2
    exact ⟨_, d0.1.trans z.did, tr, [], [], by simp, ht, .inl rfl, .inl ⟨rfl, rfl⟩⟩
  rename_i s2 flen he2
  obtain ⟨tr, z, ht⟩ := truncateStep_did hn he2
  split at h
  · rename_i s3 e he3
    cases h
    obtain ⟨rs, z3, hr⟩ := resizeStep_did hf (z.fits _ rfl) he3
    exact ⟨_, (d0.1.trans z.did).trans z3.did, tr, rs, [], by simp, ht, hr, .inl ⟨rfl, rfl⟩⟩
  rename_i s3 flen' he3
  obtain ⟨rs, z3, hr⟩ := resizeStep_did hf (z.fits _ rfl) he3
  have hg : s3.gran = s.gran := by rw [z3.gran, z.gran]; exact d0.2
  obtain ⟨mp, d4, hm⟩ := mapStep_did (hg.trans hb) hbits hf (z3.fits _ rfl) h
  rw [hg] at hm
  exact ⟨_, ((d0.1.trans z.did).trans z3.did).trans d4, tr, rs, mp, by simp, ht, hr, hm⟩

theorem allocLen_fits {t : Target} {s : Win} (w : WinWf t s) {e : Extent} {d : Nat} (hd : d < s.page)
    (hf : WinAllocFits t s.gran d e) :
    ∃ len, s.allocLen t e d = .ok len ∧ AllocLen s.gran d e len ∧ d + len < t.lim := by
  obtain ⟨a, b, hpa, hgb, hab, hbits⟩ := w.sizes
  have hgp := w.gran_pos
  have hpg : s.page ≤ s.gran := Nat.le_of_dvd hgp w.page_dvd
  have hlim : 4 * s.gran ≤ t.lim := by
    rw [hgb]
    have : 2 ^ b * 2 ^ 2 = 2 ^ (b + 2) := (Nat.pow_add 2 b 2).symm
    have h2 : 2 ^ (b + 2) ≤ t.lim := Nat.pow_le_pow_right (by decide) (by omega)
    omega
  have hsz : s.sizeAlloc = Size.withSize (2 ^ b) := by rw [sizeAlloc, systemInfo, ← hgb]
  have hround : ∀ x, x + s.gran < t.lim → s.sizeAlloc.round t x = .ok ((x + s.gran - 1) / s.gran * s.gran) := by
    intro x hx
    rw [hsz, hgb]
    rw [hgb] at hx
    exact round_eq (by omega) hx
  cases e with
  | endOf =>
    have hr : (d + 1 + s.gran - 1) / s.gran * s.gran = s.gran :=
      IsRoundUp.unique (isRoundUp_div hgp) ⟨Nat.dvd_refl _, by omega, fun m hm h => Nat.le_of_dvd (by omega) hm⟩
    simp only [allocLen, bind, Except.bind, addU_ok (show d + 1 < t.lim by omega), hround _ (show d + 1 + s.gran < t.lim by omega),
      hr, subU_ok (show d ≤ s.gran by omega)]
    exact ⟨_, rfl, ⟨by omega, by omega⟩, by omega⟩
  | exact l => exact ⟨l, rfl, rfl, hf⟩
  | max l => exact ⟨l, rfl, rfl, hf⟩
  | min l =>
    simp only [WinAllocFits] at hf
    obtain ⟨g1, g2, g3⟩ := isRoundUp_div (u := s.gran) (len := d + l) hgp
    have g4 : (d + l + s.gran - 1) / s.gran * s.gran ≤ d + l + s.gran - 1 := Nat.div_mul_le_self _ _
    simp only [allocLen, bind, Except.bind, addU_ok (show d + l < t.lim by omega), hround _ hf]
    generalize (d + l + s.gran - 1) / s.gran * s.gran = R at g1 g2 g3 g4
    simp only [subU_ok (show d ≤ R by omega)]
    exact ⟨_, rfl, ⟨by omega, by rw [show d + (R - d) = R by omega]; exact g1, by omega⟩, by omega⟩

theorem alloc_did {t : Target} {s s' : Win} (w : WinWf t s) {o : Options}
    (hf : WinAllocFits t s.gran (o.offset % s.page) o.len) {r : Result MapMut} (h : s.alloc t o = .ok (s', r)) :
    ∃ cs l, WinDid s s' cs ∧ AllocLen s.gran (o.offset % s.page) o.len l ∧
      ViewCalls none o.protect (o.offset % s.page + l) 0 (o.offset % s.page + l) r.toBool cs := by
  obtain ⟨a, b, hpa, -⟩ := w.sizes
  have hoff : s.sizePage.offset t o.offset = .ok (o.offset % s.page) := by
    rw [sizePage, systemInfo, hpa]; exact offset_eq
  obtain ⟨len, h1, h2, h3⟩ := allocLen_fits w (Nat.mod_lt o.offset w.page_pos) hf
  simp only [alloc, hoff, h1, addU_ok h3, bind, Except.bind] at h
  split at h
  · cases h
  rename_i x hx
  obtain ⟨s1, r1⟩ := x
  obtain ⟨cs, d, v⟩ := mapAnon_did h3 hx
  cases r1 <;> cases h <;> exact ⟨cs, len, d, h2, v⟩

theorem ringNew_did {t : Target} {s s' : Win} (w : WinWf t s) {hint : Nat} (hf : 2 * (hint + s.gran) < t.lim)
    {r : Result Ring} (h : s.ringNew t hint = .ok (s', r)) :
    ∃ cs, WinDid s s' cs ∧ WinRingCalls s.gran hint r.toBool cs := by
  obtain ⟨a, b, -, hb, -, hbits⟩ := w.sizes
  have hr : s.sizeAlloc.round t hint = .ok ((hint + 2 ^ b - 1) / 2 ^ b * 2 ^ b) := by
    rw [sizeAlloc, systemInfo, hb]
    exact round_eq (by omega) (by rw [← hb]; omega)
  have hle := Nat.div_mul_le_self (hint + 2 ^ b - 1) (2 ^ b)
  obtain ⟨g1, g2, -⟩ := isRoundUp_div (u := 2 ^ b) (len := hint) (Nat.two_pow_pos b)
  rw [hb] at hf ⊢
  simp only [ringNew, hr, bind, Except.bind] at h
  split at h
  · cases h
  rename_i x hx
  obtain ⟨s1, r1⟩ := x
  have hp2 := Nat.two_pow_pos b
  obtain ⟨cs, d, hi, lo, hs, hc⟩ := mapRing_did w.page_pos (by omega) hx
  cases r1 <;> cases h <;> exact ⟨cs, d, _, hi, lo, g1, g2, by omega, hs, hc⟩

theorem infNew_did {t : Target} {s s' : Win} (w : WinWf t s) {hint : Nat} (hf : 2 * (hint + s.gran) < t.lim)
    {r : Result InfiniteRing} (h : s.infNew t hint = .ok (s', r)) :
    ∃ cs, WinDid s s' cs ∧ WinRingCalls s.gran hint r.toBool cs := by
  obtain ⟨a, b, -, hb, -, hbits⟩ := w.sizes
  have hr : s.sizeAlloc.round t hint = .ok ((hint + 2 ^ b - 1) / 2 ^ b * 2 ^ b) := by
    rw [sizeAlloc, systemInfo, hb]
    exact round_eq (by omega) (by rw [← hb]; omega)
  have hle := Nat.div_mul_le_self (hint + 2 ^ b - 1) (2 ^ b)
  obtain ⟨g1, g2, -⟩ := isRoundUp_div (u := 2 ^ b) (len := hint) (Nat.two_pow_pos b)
  rw [hb] at hf ⊢
  simp only [infNew, hr, bind, Except.bind] at h
  split at h
  · cases h
  rename_i x hx
  obtain ⟨s1, r1⟩ := x
  have hp2 := Nat.two_pow_pos b
  obtain ⟨cs, d, hi, lo, hs, hc⟩ := mapRing_did w.page_pos (by omega) hx
  cases r1 <;> cases h <;> exact ⟨cs, d, _, hi, lo, g1, g2, by omega, hs, hc⟩

/-- Dropping a map unmaps the view it is in. -/
theorem dropMap_did {t : Target} {s s' : Win} (wf : WinWf t s) (l : WinLaid t s) {m : MapMut} (hm : 0 < m.len)
    {v : WinView} (hv : v ∈ s.views) (mv : MapView s.gran m v) (h : s.dropMap t m = .ok s') :
    WinDid s s' [.unmapViewOfFile v.base] := by
  obtain ⟨a, b, hpa, hgb, hab, hbits⟩ := wf.sizes
  obtain ⟨i1, i2, i3, i4, i5⟩ := l.inside v hv
  obtain ⟨m1, m2, m3, m4⟩ := mv
  have hrl := s.roundPage_le wf.page_pos v.len
  have hge : s.gran ≤ v.base := Nat.le_of_dvd (Nat.pos_of_ne_zero i2) i3
  obtain ⟨n, hn⟩ := Win.bounds_start (t := t) (k := b) (base := v.base) (d := m.ptr - v.base) (len := m.len) (by omega)
    (by rw [← hgb]; exact Nat.mod_eq_zero_of_dvd i3) (by rw [← hgb]; omega) (by rw [← hgb]; omega)
  have hsz : s.sizeAlloc = Size.withSize (2 ^ b) := by rw [Win.sizeAlloc, Win.systemInfo, ← hgb]
  rw [show v.base + (m.ptr - v.base) = m.ptr by omega] at hn
  simp only [dropMap, if_pos hm, hsz, hn, bind, Except.bind, unmap] at h
  have hd := s.unmapViewOfFile_did v.base
  split at h <;> rename_i he <;> cases h <;> rw [he] at hd <;> exact hd

/-- Dropping a ring unmaps its two views, the second first. -/
theorem unmapRing_did {t : Target} {s : Win} (wf : WinWf t s) (l : WinLaid t s) {ptr len : Nat}
    {v2 : WinView} (h2 : v2 ∈ s.views) (b2 : v2.base = ptr + len) :
    WinDid s (s.unmapRing t ptr len).1 [.unmapViewOfFile (ptr + len), .unmapViewOfFile ptr] := by
  obtain ⟨i1, i2, i3, i4, i5⟩ := l.inside v2 h2
  have hrl := s.roundPage_le wf.page_pos v2.len
  have hadd : ptrAdd t ptr len = ptr + len := ptrAdd_ok (by omega)
  have hd := s.unmapViewOfFile_did (ptr + len)
  have hu : s.unmapViewOfFile (ptr + len) = ({ s.did (.unmapViewOfFile (ptr + len)) with
      views := s.views.filter (fun x => decide (x.base ≠ ptr + len))
      locked := fun q => s.locked q && !s.views.any (fun x => decide (x.base = ptr + len) && x.onPage s.page q) },
      .ok ()) := if_pos (List.any_eq_true.mpr ⟨v2, h2, by simp [b2]⟩)
  simp only [Win.unmapRing, hadd, hu]
  rw [hu] at hd
  exact hd.trans (unmapViewOfFile_did _ ptr)

theorem wrap_fst (op : Operation) (r : Win × Except Nat Unit) : (wrap op r).1 = r.1 := by
  obtain ⟨s, _ | _⟩ := r <;> rfl

theorem protect_log (s : Win) (pg len : Nat) (prot : Protect) :
    (s.protect pg len prot).1.log = .virtualProtect pg len (protectBits prot) :: s.log := by
  rw [protect, wrap_fst, virtualProtect]
  split <;> rfl

theorem lock_log (s : Win) (pg len : Nat) : (s.lock pg len).1.log = .virtualLock pg len :: s.log := by
  rw [lock, wrap_fst, virtualLock]
  split <;> rfl

theorem unlock_log (s : Win) (pg len : Nat) : (s.unlock pg len).1.log = .virtualUnlock pg len :: s.log := by
  rw [unlock, wrap_fst, virtualUnlock]
  split <;> rfl

theorem store_log {s s' : Win} {a : Nat} {b : Byte} (h : s.store a b = .ok s') : s'.log = s.log := by
  unfold store at h
  split at h
  · cases h
  · dsimp only at h
    split at h
    · split at h
      · cases h
      · split at h <;> cases h <;> rfl
    · split at h
      · split at h <;> cases h; rfl
      · cases h

theorem flush_did (s : Win) (pg file len : Nat) (mode : FlushMode) :
    WinDid s (s.flush pg file len mode).1 [.flushViewOfFile pg len] ∨
    mode = .sync ∧ WinDid s (s.flush pg file len mode).1 [.flushViewOfFile pg len, .flushFileBuffers file] := by
  unfold flush simple
  split
  · rename_i he; injection he with h1 h2; subst h1; exact .inl rfl
  · rename_i he
    injection he with h1 h2
    subst h1
    cases mode with
    | async => exact .inl rfl
    | sync => exact .inr ⟨rfl, by dsimp only; rw [wrap_fst]; rfl⟩

end Win
end Vmap
