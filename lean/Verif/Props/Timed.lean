import Verif.Proof.Timed
import Verif.Props.AddressSpace

/-!
# C118: windows and address spaces over bus masters and memories, with accesses that take time

Accesses through windows and address spaces to bus masters take simulated time. Meanwhile other coroutines may access the same address space, the same masters,
the memories behind them, and registers more regions; the masters may be reset. `Found` and `Stored` (Spec/Timed.lean) say what a caller may rely on.
-/

namespace Verif

open AddressSpace

/-! ### Windows -/

/-- **C118, windows.** A window over an object that reads what is there shows the contents shifted by the offset. -/
theorem C118_window_read {p : Dev} {V : Contents} (hp : p.ReadsWhatIsThere V) (offset : Int) (size : Nat) :
    (p.window offset size).ReadsWhatIsThere fun t x => V t (x + offset) := by
  intro a n i j o d h hd
  simp only [Dev.window, Iface.getParentAddress] at h
  split at h
  · cases h.2
  · split at h
    · cases h.2
    · rename_i a' h2
      split at h2
      · cases h2
      · cases h2
        obtain ⟨g0, g1, g2, g3⟩ := hp _ _ _ _ _ _ h hd
        refine ⟨g0, g1, g2, g3.congr fun t k _ => ?_⟩
        show V t (a + k + offset) = _
        congr 1; omega

/-- **C118, windows, writes.** -/
theorem C118_window_write {p : Dev} {V : Contents} (hp : p.WritesWhatItSays V) (offset : Int) (size : Nat) :
    (p.window offset size).WritesWhatItSays fun t x => V t (x + offset) := by
  intro a d i j r h
  simp only [Dev.window, Iface.getParentAddress] at h
  split at h
  · cases h.2
  · split at h
    · cases h.2
    · rename_i a' h2
      split at h2
      · cases h2
      · cases h2
        obtain ⟨r', h, hr⟩ := h
        cases r' with
        | error e => cases hr
        | ok r' =>
          obtain ⟨g1, g2⟩ := hp _ _ _ _ _ h
          refine ⟨g1, g2.congr fun t k _ => ?_⟩
          show V t (a + k + offset) = _
          congr 1; omega

/-- **C118, windows are confined.** Whatever an access through a window does, and however it ends, it touches only addresses of the parent that the window covers. -/
theorem C118_window_confined (p : Dev) (offset : Int) (size : Nat) :
    (∀ a n i j r, (p.window offset size).Read a n i j r →
      ((p.only fun x => offset ≤ x ∧ x < offset + size).window offset size).Read a n i j r) ∧
    ∀ a d i j r, (p.window offset size).Write a d i j r →
      ((p.only fun x => offset ≤ x ∧ x < offset + size).window offset size).Write a d i j r := by
  have hc : ∀ a n : Int, Iface.checkRange size a n = .ok () → 0 ≤ a ∧ a + n ≤ size := by
    intro a n h
    simp only [Iface.checkRange] at h
    split at h
    · cases h
    split at h
    · cases h
    split at h
    · cases h
    · omega
  have hg : ∀ a a' : Int, Iface.getParentAddress size offset a = .ok a' → a' = a + offset := by
    intro a a' h
    simp only [Iface.getParentAddress] at h
    split at h
    · cases h
    · cases h; rfl
  constructor
  · intro a n i j r h
    simp only [Dev.window] at h ⊢
    cases h1 : Iface.checkRange size a n with
    | error e => rw [h1] at h; exact h
    | ok u =>
      rw [h1] at h
      cases h2 : Iface.getParentAddress size offset a with
      | error e => rw [h2] at h; exact h
      | ok a' =>
        rw [h2] at h
        have := hc a n h1
        have := hg a a' h2
        exact ⟨fun x _ _ => by omega, h⟩
  · intro a d i j r h
    simp only [Dev.window] at h ⊢
    cases h1 : Iface.checkRange size a d.length with
    | error e => rw [h1] at h; exact h
    | ok u =>
      rw [h1] at h
      cases h2 : Iface.getParentAddress size offset a with
      | error e => rw [h2] at h; exact h
      | ok a' =>
        rw [h2] at h
        have := hc a d.length h1
        have := hg a a' h2
        obtain ⟨r', h, hr⟩ := h
        exact ⟨r', ⟨fun x _ _ => by omega, h⟩, hr⟩

/-- **C118, windows pass everything on.** An access that lies in the window is an access of the parent, and returns or raises when that does; any other access is
rejected at once, and the parent sees nothing of it. -/
theorem C118_window_exact (p : Dev) (offset : Int) (size : Nat) (a : Int) (i j : Nat) :
    (∀ n r, 0 ≤ a → a < size → 0 ≤ n → a + n ≤ size → ((p.window offset size).Read a n i j r ↔ p.Read (a + offset) n i j r)) ∧
    (∀ n r, ¬ (0 ≤ a ∧ a < size ∧ 0 ≤ n ∧ a + n ≤ size) → ((p.window offset size).Read a n i j r ↔ j = i ∧ r = .error .valueError)) ∧
    (∀ d : Bytes, 0 ≤ a → a < size → a + d.length ≤ size →
      ((p.window offset size).Write a d i j (.ok none) ↔ ∃ r, p.Write (a + offset) d i j (.ok r)) ∧
      ∀ e, (p.window offset size).Write a d i j (.error e) ↔ p.Write (a + offset) d i j (.error e)) ∧
    ∀ (d : Bytes) r, ¬ (0 ≤ a ∧ a < size ∧ a + d.length ≤ size) → ((p.window offset size).Write a d i j r ↔ j = i ∧ r = .error .valueError) := by
  have h1 : ∀ n : Int, 0 ≤ a → a < size → 0 ≤ n → a + n ≤ size → Iface.checkRange size a n = .ok () ∧
      Iface.getParentAddress size offset a = .ok (a + offset) := by
    intro n g1 g2 g3 g4
    simp only [Iface.checkRange, Iface.getParentAddress]
    refine ⟨?_, ?_⟩
    · rw [if_neg (by omega), if_neg (by omega), if_neg (by omega)]
    · rw [if_neg (by omega)]
  have h2 : ∀ n : Int, ¬ (0 ≤ a ∧ a < size ∧ 0 ≤ n ∧ a + n ≤ size) → Iface.checkRange size a n = .error .valueError := by
    intro n g
    simp only [Iface.checkRange]
    split
    · rfl
    split
    · rfl
    split
    · rfl
    · omega
  refine ⟨?_, ?_, ?_, ?_⟩
  · intro n r g1 g2 g3 g4
    simp only [Dev.window, h1 n g1 g2 g3 g4]
  · intro n r g
    simp only [Dev.window, h2 n g]
  · intro d g1 g2 g3
    simp only [Dev.window, h1 d.length g1 g2 (by omega) g3]
    refine ⟨⟨?_, ?_⟩, fun e => ⟨?_, ?_⟩⟩
    · rintro ⟨r', h, hr⟩
      cases r' with
      | error e => cases hr
      | ok r => exact ⟨r, h⟩
    · rintro ⟨r, h⟩
      exact ⟨.ok r, h, rfl⟩
    · rintro ⟨r', h, hr⟩
      cases r' with
      | error e => cases hr; exact h
      | ok r => cases hr
    · intro h
      exact ⟨.error e, h, rfl⟩
  · intro d r g
    simp only [Dev.window, h2 d.length (fun h => g ⟨h.1, h.2.1, h.2.2.2⟩)]

/-! ### Address spaces -/

/-- The space is the result of some history of `register_region` calls, failed ones included. -/
def Registered {σ : Type} (s : AddressSpace σ) : Prop := ∃ size base regs, s = (AddressSpace.mk size base []).registerAll regs

section space

variable {σ : Type} {s : AddressSpace σ} (hs : Registered s) (hpos : ∀ e ∈ s.regions, 0 < e.size)

theorem Registered.apart {s : AddressSpace σ} (hs : Registered s) : s.regions.Pairwise EApart := by
  obtain ⟨size, base, regs, rfl⟩ := hs
  exact (registerAll_inv regs (AddressSpace.mk size base []) ⟨by simp, by simp⟩).1

include hs hpos in
/-- **C118, address spaces, reads.** In an address space built by any history of registrations, over regions that read what is there, a read that returns gives
exactly the requested number of bytes, each of which was at its address, in its region, at some instant during the read, in ascending order. Every address was in
a registered region. -/
theorem C118_space_read (D : Entry σ → Dev) (V : Entry σ → Contents) (W : Contents) (hW : SeenThrough s V W)
    (hR : ∀ e ∈ s.regions, (D e).ReadsWhatIsThere (V e)) :
    (Dev.space s D).ReadsWhatIsThere W ∧
    ∀ a n i j o, (Dev.space s D).Read a n i j (.ok o) → (∃ d, o = .bytes d) ∧
      ∀ x, a ≤ x → x < a + n → ∃ e ∈ s.regions, e.base ≤ x ∧ x < e.base + e.size := by
  have hd := hs.apart
  have key : ∀ a n i j o, (Dev.space s D).Read a n i j (.ok o) → ∃ d, o = .bytes d ∧ 0 ≤ n ∧ (d.length : Int) = n ∧ i ≤ j ∧
      Found W a d i j ∧ ∀ x, a ≤ x → x < a + n → ∃ e ∈ s.regions, e.base ≤ x ∧ x < e.base + e.size := by
    intro a n i j o h
    simp only [Dev.space] at h
    split at h
    · cases h.2
    · cases h.2
    · rename_i L _ hL
      obtain ⟨g0, g1, g2, g3⟩ := Dev.findRegions_ahead hd hpos hL
      obtain ⟨d, f1, f2, f3, f4, f5⟩ := Dev.readLoop_found hW hR L a n [] i j o g1 g2 g0 h
      refine ⟨d, by simpa using f1, g0, f2, f3, f4, fun x h1 h2 => ?_⟩
      obtain ⟨e, he, h3⟩ := f5 x h1 h2
      exact ⟨e, g2 e he, h3⟩
  refine ⟨?_, ?_⟩
  · intro a n i j o d h hd
    obtain ⟨d', rfl, h1, h2, h3, h4, _⟩ := key a n i j o h
    cases hd
    exact ⟨h1, h2, h3, h4⟩
  · intro a n i j o h
    obtain ⟨d', rfl, _, _, _, _, h5⟩ := key a n i j o h
    exact ⟨⟨d', rfl⟩, h5⟩

include hs hpos in
/-- **C118, address spaces, writes.** -/
theorem C118_space_write (D : Entry σ → Dev) (V : Entry σ → Contents) (W : Contents) (hW : SeenThrough s V W)
    (hR : ∀ e ∈ s.regions, (D e).WritesWhatItSays (V e)) :
    (Dev.space s D).WritesWhatItSays W ∧
    ∀ a d i j r, (Dev.space s D).Write a d i j (.ok r) →
      ∀ x, a ≤ x → x < a + d.length → ∃ e ∈ s.regions, e.base ≤ x ∧ x < e.base + e.size := by
  have hd := hs.apart
  have key : ∀ a d i j r, (Dev.space s D).Write a d i j (.ok r) → i ≤ j ∧ Stored W a d i j ∧
      ∀ x, a ≤ x → x < a + d.length → ∃ e ∈ s.regions, e.base ≤ x ∧ x < e.base + e.size := by
    intro a d i j r h
    simp only [Dev.space] at h
    split at h
    · cases h.2
    · cases h.2
    · rename_i L _ hL
      obtain ⟨g0, g1, g2, g3⟩ := Dev.findRegions_ahead hd hpos hL
      obtain ⟨f1, f2, f3⟩ := Dev.writeLoop_stored hW hR d L a 0 d.length i j r g1 g2 (by omega) h
      refine ⟨f1, by simpa using f2, fun x h1 h2 => ?_⟩
      obtain ⟨e, he, h3⟩ := f3 x h1 h2
      exact ⟨e, g2 e he, h3⟩
  exact ⟨fun a d i j r h => ⟨(key a d i j r h).1, (key a d i j r h).2.1⟩, fun a d i j r h => (key a d i j r h).2.2⟩

/-- An address of a region's own that stands for an address from `a` on and before `b` of the space. -/
def standsFor (e : Entry σ) (a b : Int) (y : Int) : Prop :=
  ∃ x, a ≤ x ∧ x < b ∧ e.base ≤ x ∧ x < e.base + e.size ∧ y = match e.offset with
    | none => x
    | some o => x - e.base + o

include hs hpos in
/-- **C118, address spaces are confined.** Whatever an access through an address space does, and however it ends, it touches only addresses of the regions
that stand for the requested addresses. -/
theorem C118_space_confined (D : Entry σ → Dev) :
    (∀ a n i j r, (Dev.space s D).Read a n i j r →
      (Dev.space s fun e => (D e).only (standsFor e a (a + n))).Read a n i j r) ∧
    ∀ a d i j r, (Dev.space s D).Write a d i j r →
      (Dev.space s fun e => (D e).only (standsFor e a (a + d.length))).Write a d i j r := by
  have hd := hs.apart
  have seg : ∀ (e : Entry σ) (cur n a b y : Int), cur ≤ e.base + e.size → e.base ≤ cur → 0 ≤ n → a ≤ cur → cur + n ≤ b →
      segTarget e cur (cur - e.base) ≤ y → y < segTarget e cur (cur - e.base) + min (e.size - (cur - e.base)) n →
      standsFor e a b y := by
    intro e cur n a b y h1 h2 h3 h4 h5 h6 h7
    unfold segTarget at h6 h7
    cases ho : e.offset with
    | none =>
      rw [ho] at h6 h7
      simp only at h6 h7
      exact ⟨y, by omega, by omega, by omega, by omega, by rw [ho]⟩
    | some o =>
      rw [ho] at h6 h7
      simp only at h6 h7
      exact ⟨y - o + e.base, by omega, by omega, by omega, by omega, by rw [ho]; simp only; omega⟩
  constructor
  · intro a n i j r h
    simp only [Dev.space] at h ⊢
    split at h
    · assumption
    · assumption
    · rename_i L hne hL
      · obtain ⟨g0, g1, _, _⟩ := Dev.findRegions_ahead hd hpos hL
        have key : ∀ (L : List (Entry σ)) (cur m : Int) (acc : Bytes) (i : Nat), Dev.Ahead L cur → 0 ≤ m → a ≤ cur → cur + m ≤ a + n →
            Dev.readLoop D L cur m acc i j r → Dev.readLoop (fun e => (D e).only (standsFor e a (a + n))) L cur m acc i j r := by
          intro L
          induction L with
          | nil => intro cur m acc i _ _ _ _ h; simpa only [Dev.readLoop] using h
          | cons e L ih =>
            intro cur m acc i hA h1 h2 h3 h
            simp only [Dev.readLoop] at h ⊢
            have hah := hA.ahead e (by simp)
            by_cases hb : e.base > cur
            · rw [if_pos hb] at h ⊢; exact h
            · rw [if_neg hb] at h ⊢
              obtain ⟨q, x, hx, h⟩ := h
              refine ⟨q, x, ⟨fun y y1 y2 => seg e cur m a (a + n) y hah (by omega) h1 h2 h3 y1 y2, hx⟩, ?_⟩
              cases x with
              | error er => exact h
              | ok ob =>
                simp only at h ⊢
                cases hob : ob.toBytes with
                | error er => rw [hob] at h; exact h
                | ok d =>
                  rw [hob] at h
                  exact ih _ _ _ _ (hA.step (by omega)) (by omega) (by omega) (by omega) h
        exact key _ _ _ _ _ g1 g0 (by omega) (by omega) h
  · intro a d i j r h
    simp only [Dev.space] at h ⊢
    split at h
    · assumption
    · assumption
    · rename_i L hne hL
      · obtain ⟨g0, g1, _, _⟩ := Dev.findRegions_ahead hd hpos hL
        have key : ∀ (L : List (Entry σ)) (cur st m : Int) (i : Nat), Dev.Ahead L cur → 0 ≤ m → 0 ≤ st → a ≤ cur → cur + m ≤ a + d.length →
            Dev.writeLoop D L cur st m d i j r → Dev.writeLoop (fun e => (D e).only (standsFor e a (a + d.length))) L cur st m d i j r := by
          intro L
          induction L with
          | nil => intro cur st m i _ _ _ _ _ h; simpa only [Dev.writeLoop] using h
          | cons e L ih =>
            intro cur st m i hA h1 h0 h2 h3 h
            simp only [Dev.writeLoop] at h ⊢
            have hah := hA.ahead e (by simp)
            by_cases hb : e.base > cur
            · rw [if_pos hb] at h ⊢; exact h
            · rw [if_neg hb] at h ⊢
              obtain ⟨q, x, hx, h⟩ := h
              refine ⟨q, x, ⟨fun y y1 y2 => seg e cur m a (a + d.length) y hah (by omega) h1 h2 h3 y1 ?_, hx⟩, ?_⟩
              · have : ((pySlice d st.toNat (st + min (e.size - (cur - e.base)) m).toNat).length : Int) ≤ min (e.size - (cur - e.base)) m := by
                  unfold pySlice
                  rw [List.length_drop, List.length_take]
                  omega
                omega
              · cases x with
                | error er => exact h
                | ok ob => exact ih _ _ _ _ (hA.step (by omega)) (by omega) (by omega) (by omega) (by omega) h
        exact key _ _ _ _ _ g1 g0 (by omega) (by omega) (by omega) h

/-- **C118, address spaces return.** If the accesses of the regions return or raise, so do those of the space. -/
theorem C118_space_returns (D : Entry σ → Dev) :
    ((∀ e ∈ s.regions, ∀ a n i, ∃ j r, (D e).Read a n i j r) → ∀ a n i, ∃ j r, (Dev.space s D).Read a n i j r) ∧
    ((∀ e ∈ s.regions, ∀ a d i, ∃ j r, (D e).Write a d i j r) → ∀ a d i, ∃ j r, (Dev.space s D).Write a d i j r) := by
  have mem : ∀ {a n : Int} {L : List (Entry σ)}, s.findRegions a n = .ok L → ∀ e ∈ L, e ∈ s.regions := by
    intro a n L h e he
    simp only [findRegions] at h
    split at h
    · cases h
    split at h
    · cases h
    cases h
    rw [mem_sortEntries, List.mem_filter] at he
    exact he.1
  constructor
  · intro h a n i
    simp only [Dev.space]
    split
    · exact ⟨_, _, rfl, rfl⟩
    · exact ⟨_, _, rfl, rfl⟩
    · rename_i L _ hL
      have hm := mem hL
      have key : ∀ (L : List (Entry σ)) (cur m : Int) (acc : Bytes) (i : Nat), (∀ e ∈ L, e ∈ s.regions) →
          ∃ j r, Dev.readLoop D L cur m acc i j r := by
        intro L
        induction L with
        | nil => intro cur m acc i _; simp only [Dev.readLoop]; exact ⟨_, _, rfl, rfl⟩
        | cons e L ih =>
          intro cur m acc i hL
          simp only [Dev.readLoop]
          split
          · exact ⟨_, _, rfl, rfl⟩
          · obtain ⟨q, x, hx⟩ := h e (hL e (by simp)) (segTarget e cur (cur - e.base)) (min (e.size - (cur - e.base)) m) i
            cases x with
            | error er => exact ⟨_, _, q, _, hx, rfl, rfl⟩
            | ok ob =>
              cases hob : ob.toBytes with
              | error er => exact ⟨q, .error er, q, _, hx, by simp only [hob]; exact ⟨trivial, trivial⟩⟩
              | ok d =>
                obtain ⟨j, r, hr⟩ := ih (cur + min (e.size - (cur - e.base)) m) (m - min (e.size - (cur - e.base)) m) (acc ++ d) q
                  (fun e he => hL e (by simp [he]))
                exact ⟨j, r, q, _, hx, by simp only [hob]; exact hr⟩
      exact key L a n [] i hm
  · intro h a d i
    simp only [Dev.space]
    split
    · exact ⟨_, _, rfl, rfl⟩
    · exact ⟨_, _, rfl, rfl⟩
    · rename_i L _ hL
      have hm := mem hL
      have key : ∀ (L : List (Entry σ)) (cur st m : Int) (i : Nat), (∀ e ∈ L, e ∈ s.regions) →
          ∃ j r, Dev.writeLoop D L cur st m d i j r := by
        intro L
        induction L with
        | nil => intro cur st m i _; simp only [Dev.writeLoop]; exact ⟨_, _, rfl, rfl⟩
        | cons e L ih =>
          intro cur st m i hL
          simp only [Dev.writeLoop]
          split
          · exact ⟨_, _, rfl, rfl⟩
          · obtain ⟨q, x, hx⟩ := h e (hL e (by simp)) (segTarget e cur (cur - e.base))
              (pySlice d st.toNat (st + min (e.size - (cur - e.base)) m).toNat) i
            cases x with
            | error er => exact ⟨_, _, q, _, hx, rfl, rfl⟩
            | ok ob =>
              obtain ⟨j, r, hr⟩ := ih (cur + min (e.size - (cur - e.base)) m) (st + min (e.size - (cur - e.base)) m)
                (m - min (e.size - (cur - e.base)) m) q (fun e he => hL e (by simp [he]))
              exact ⟨j, r, q, _, hx, hr⟩
      exact key L a 0 d.length i hm

/-- `b` and the `m` addresses from it on stand for addresses from `a` on and before `a + n` of the space (or `b` for `a`, if `n` is 0). -/
def Requested (e : Entry σ) (a n b m : Int) : Prop :=
  0 ≤ m ∧ standsFor e a (a + max n 1) b ∧ ∀ y, b ≤ y → y < b + m → standsFor e a (a + n) y

theorem requested_seg {L : List (Entry σ)} {e : Entry σ} {a n cur m : Int} (hA : Dev.Ahead (e :: L) cur) (hn : 0 ≤ n) (hm : 0 ≤ m) (hac : a ≤ cur)
    (hsum : cur + m = a + n) (hle : e.base ≤ cur) (hin : cur < e.base + e.size) (hcur : cur < a + max n 1) :
    Requested e a n (segTarget e cur (cur - e.base)) (min (e.size - (cur - e.base)) m) := by
  refine ⟨by omega, ?_, fun y h1 h2 => ?_⟩
  · refine ⟨cur, hac, hcur, hle, hin, ?_⟩
    unfold segTarget
    cases e.offset <;> simp
  · unfold segTarget at h1 h2
    cases ho : e.offset with
    | none =>
      rw [ho] at h1 h2
      simp only at h1 h2
      exact ⟨y, by omega, by omega, by omega, by omega, by rw [ho]⟩
    | some o =>
      rw [ho] at h1 h2
      simp only at h1 h2
      exact ⟨y - o + e.base, by omega, by omega, by omega, by omega, by rw [ho]; simp only; omega⟩

/-- Where the loops of an address space are, while all is well. -/
structure OnTrack (s : AddressSpace σ) (a n : Int) (L : List (Entry σ)) (cur m : Int) : Prop where
  ahead : Dev.Ahead L cur
  nonneg : 0 ≤ m
  le : a ≤ cur
  sum : cur + m = a + n
  reg : ∀ e ∈ L, e ∈ s.regions
  before : ∀ e ∈ L, e.base < a + max n 1
  inside : ∀ e ∈ L, cur < e.base + e.size
  fresh : cur = a ∨ ∀ e ∈ L, cur ≤ e.base
  cover : ∀ x, cur ≤ x → x < cur + m → ∃ e ∈ L, e.base ≤ x ∧ x < e.base + e.size

theorem OnTrack.nil {a n cur m : Int} (h : OnTrack s a n [] cur m) : ¬ m > 0 := by
  intro hm
  obtain ⟨e, he, _⟩ := h.cover cur (by omega) (by omega)
  cases he

theorem OnTrack.base {a n cur m : Int} {e : Entry σ} {L : List (Entry σ)} (h : OnTrack s a n (e :: L) cur m) (hn : 0 ≤ n) :
    ¬ e.base > cur := by
  have h1 := h.before e (by simp)
  have h2 := h.sum
  have h3 := h.nonneg
  have h4 := h.le
  by_cases hm0 : m = 0
  · omega
  · obtain ⟨e', he', h1, _⟩ := h.cover cur (by omega) (by omega)
    rcases List.mem_cons.1 he' with rfl | he'
    · omega
    · have := (List.pairwise_cons.1 h.ahead.sorted).1 e' he'; omega

theorem OnTrack.requested {a n cur m : Int} {e : Entry σ} {L : List (Entry σ)} (h : OnTrack s a n (e :: L) cur m) (hn : 0 ≤ n) :
    Requested e a n (segTarget e cur (cur - e.base)) (min (e.size - (cur - e.base)) m) := by
  have hb := h.base hn
  have h1 := h.before e (by simp)
  have h2 := h.sum
  have h3 := h.nonneg
  have h4 := h.le
  refine requested_seg h.ahead hn h.nonneg h.le h.sum (by omega) (h.inside e (by simp)) ?_
  rcases h.fresh with h5 | h5
  · omega
  · have := h5 e (by simp); omega

theorem OnTrack.step {a n cur m : Int} {e : Entry σ} {L : List (Entry σ)} (h : OnTrack s a n (e :: L) cur m) (hn : 0 ≤ n) :
    OnTrack s a n L (cur + min (e.size - (cur - e.base)) m) (m - min (e.size - (cur - e.base)) m) := by
  have hb := h.base hn
  have hi := h.inside e (by simp)
  have h2 := h.sum
  have h3 := h.nonneg
  have h4 := h.le
  have hq : ∀ e' ∈ L, cur + min (e.size - (cur - e.base)) m ≤ e'.base := by
    intro e' he'
    have a1 := (List.pairwise_cons.1 h.ahead.sorted).1 e' he'
    have a2 := (List.pairwise_cons.1 h.ahead.apart).1 e' he'
    have a3 := h.ahead.pos e (by simp)
    have a4 := h.ahead.pos e' (by simp [he'])
    unfold EApart at a2
    omega
  refine ⟨h.ahead.step (by omega), by omega, by omega, by omega, fun e he => h.reg e (by simp [he]), fun e he => h.before e (by simp [he]),
    fun e' he' => ?_, .inr hq, fun x h5 h6 => ?_⟩
  · have := hq e' he'
    have := h.ahead.pos e' (by simp [he'])
    omega
  · obtain ⟨e', he', h7, h8⟩ := h.cover x (by omega) (by omega)
    rcases List.mem_cons.1 he' with rfl | he'
    · omega
    · exact ⟨e', he', h7, h8⟩

include hs hpos in
theorem onTrack {a n : Int} (h0 : 0 ≤ a) (hsz : a < s.size) (hn : 0 ≤ n)
    (hc : ∀ x, a ≤ x → x < a + max n 1 → ∃ e ∈ s.regions, e.base ≤ x ∧ x < e.base + e.size) :
    ∃ e L, s.findRegions a n = .ok (e :: L) ∧ OnTrack s a n (e :: L) a n := by
  have hL : ∃ L, s.findRegions a n = .ok L ∧ (∀ e ∈ L, e.base < a + max n 1 ∧ a < e.base + e.size) := by
    simp only [findRegions]
    rw [if_neg (by omega), if_neg (by omega)]
    refine ⟨_, rfl, fun e he => ?_⟩
    rw [mem_sortEntries, List.mem_filter, decide_eq_true_eq] at he
    exact ⟨he.2.2, he.2.1⟩
  obtain ⟨L, hL, hlt⟩ := hL
  obtain ⟨_, g1, g2, g3⟩ := Dev.findRegions_ahead hs.apart hpos hL
  have ht : OnTrack s a n L a n :=
    ⟨g1, hn, Int.le_refl _, rfl, g2, fun e he => (hlt e he).1, fun e he => (hlt e he).2, .inl rfl, fun x h1 h2 => by
      obtain ⟨e, he, h3, h4⟩ := hc x h1 (by omega)
      exact ⟨e, g3 e he (by omega) (by omega), h3, h4⟩⟩
  cases L with
  | nil =>
    obtain ⟨e, he, _, _⟩ := hc a (by omega) (by omega)
    exact absurd (g3 e he (by omega) (by omega)) (by simp)
  | cons e L => exact ⟨e, L, hL, ht⟩

include hs hpos in
/-- **C118, address spaces succeed.** An access whose addresses are all in registered regions raises no exception, if the accesses of the regions to the addresses
that stand for the requested ones raise none (and give bytes). -/
theorem C118_space_succeeds (D : Entry σ → Dev) (a : Int) (h0 : 0 ≤ a) (hsz : a < s.size) :
    (∀ n : Int, 0 ≤ n → (∀ x, a ≤ x → x < a + max n 1 → ∃ e ∈ s.regions, e.base ≤ x ∧ x < e.base + e.size) →
      (∀ e ∈ s.regions, ∀ b m i j r, Requested e a n b m → (D e).Read b m i j r → ∃ o d, r = .ok o ∧ o.toBytes = .ok d) →
      ∀ i j r, (Dev.space s D).Read a n i j r → ∃ o, r = .ok o) ∧
    ∀ d : Bytes, (∀ x, a ≤ x → x < a + max d.length 1 → ∃ e ∈ s.regions, e.base ≤ x ∧ x < e.base + e.size) →
      (∀ e ∈ s.regions, ∀ b d' i j r, Requested e a d.length b (d'.length : Nat) → (D e).Write b d' i j r → ∃ o, r = .ok o) →
      ∀ i j r, (Dev.space s D).Write a d i j r → r = .ok none := by
  constructor
  · intro n hn hc hok i j r h
    obtain ⟨e, L, hL, ht⟩ := onTrack hs hpos h0 hsz hn hc
    simp only [Dev.space, hL] at h
    have key : ∀ (L : List (Entry σ)) (cur m : Int) (acc : Bytes) (i : Nat), OnTrack s a n L cur m →
        Dev.readLoop D L cur m acc i j r → ∃ o, r = .ok o := by
      intro L
      induction L with
      | nil =>
        intro cur m acc i ht h
        simp only [Dev.readLoop] at h
        rw [if_neg ht.nil] at h
        exact ⟨_, h.2⟩
      | cons e L ih =>
        intro cur m acc i ht h
        simp only [Dev.readLoop] at h
        rw [if_neg (ht.base hn)] at h
        obtain ⟨q, x, hx, h⟩ := h
        obtain ⟨o, d, rfl, ho⟩ := hok e (ht.reg e (by simp)) _ _ _ _ _ (ht.requested hn) hx
        simp only [ho] at h
        exact ih _ _ _ _ (ht.step hn) h
    exact key _ a n [] i ht h
  · intro d hc hok i j r h
    obtain ⟨e, L, hL, ht⟩ := onTrack hs hpos (n := d.length) h0 hsz (by omega) (fun x h1 h2 => hc x h1 (by omega))
    simp only [Dev.space, hL] at h
    have key : ∀ (L : List (Entry σ)) (cur st m : Int) (i : Nat), OnTrack s a d.length L cur m → 0 ≤ st → st + m = d.length →
        Dev.writeLoop D L cur st m d i j r → r = .ok none := by
      intro L
      induction L with
      | nil =>
        intro cur st m i ht _ _ h
        simp only [Dev.writeLoop] at h
        rw [if_neg ht.nil] at h
        exact h.2
      | cons e L ih =>
        intro cur st m i ht h1 h2 h
        simp only [Dev.writeLoop] at h
        rw [if_neg (ht.base (by omega))] at h
        obtain ⟨q, x, hx, h⟩ := h
        have hr := ht.requested (by omega)
        have hl : ((pySlice d st.toNat (st + min (e.size - (cur - e.base)) m).toNat).length : Int) = min (e.size - (cur - e.base)) m := by
          have := hr.1
          unfold pySlice
          rw [List.length_drop, List.length_take]
          omega
        obtain ⟨o, rfl⟩ := hok e (ht.reg e (by simp)) _ _ _ _ _ (by rw [hl]; exact hr) hx
        simp only at h
        have := hr.1
        exact ih _ _ _ _ (ht.step (by omega)) (by omega) (by omega) h
    exact key _ a 0 d.length i ht (by omega) (by omega) h

end space

/-! ### Regions -/

/-- The contents of memory object `k`. -/
def objContents (S : Nat → Heap) (k : Nat) : Contents := fun t a => (S t k).contents a.toNat

theorem serves_timed {Sh : Nat → Bool × Nat} {size k : Nat} {I : Iface Heap} (hs : Serves Sh size k I) {S : Nat → Heap}
    (hg : ∀ t, Good Sh (S t)) :
    (Dev.ofIface I S).ReadsWhatIsThere (objContents S k) ∧ (Dev.ofIface I S).WritesWhatItSays (objContents S k) := by
  constructor
  · intro a n i j o d h hd
    obtain ⟨rfl, _, hr⟩ := h
    by_cases hin : 0 ≤ a ∧ a < size ∧ 0 ≤ n ∧ a + n ≤ size
    · obtain ⟨a, rfl⟩ := Int.eq_ofNat_of_zero_le hin.1
      obtain ⟨n, rfl⟩ := Int.eq_ofNat_of_zero_le hin.2.2.1
      rw [hs.read (S i) (hg i) a n (by omega) (by omega)] at hr
      cases hr
      cases hd
      refine ⟨by omega, by rw [FlatMem.load_length], by omega, fun _ => i, fun _ _ _ _ => Nat.le_refl _, fun q hq => ⟨Nat.le_refl _, Nat.lt_succ_self i, ?_⟩⟩
      rw [FlatMem.load_length] at hq
      rw [List.getElem?_eq_getElem (by rw [FlatMem.load_length]; exact hq), FlatMem.load_getElem]
      rfl
    · rw [hs.readOut _ _ _ hin] at hr
      cases hr
  · intro a d i j r h
    obtain ⟨rfl, hS, hr⟩ := h
    by_cases hin : 0 ≤ a ∧ a < size ∧ a + d.length ≤ size
    · obtain ⟨a, rfl⟩ := Int.eq_ofNat_of_zero_le hin.1
      obtain ⟨b, e1, e2, e3, e4⟩ := hs.write (S i) (hg i) a d (by omega) (by omega)
      rw [e1] at hS
      refine ⟨by omega, fun _ => i, fun _ _ _ _ => Nat.le_refl _, fun q hq => ⟨Nat.le_refl _, Nat.lt_succ_self i, ?_⟩⟩
      simp only [objContents, hS, Heap.set, if_true, e4]
      rw [show ((a : Int) + (q : Int)).toNat = a + q by omega, LiteOps.store_at (by omega), show a + q - a = q by omega]
    · rw [hs.writeOut _ _ _ hin] at hr
      cases hr

/-- **C118, memory regions** on a memory object that other coroutines may change too, between any two events. -/
theorem C118_memory_region (Sh : Nat → Bool × Nat) (size : Nat) (base : Option Int) (k : Nat) (hS : size ≤ (Sh k).2) (S : Nat → Heap)
    (hg : ∀ t, Good Sh (S t)) :
    (Dev.ofIface (memoryRegion size base k) S).ReadsWhatIsThere (objContents S k) ∧
    (Dev.ofIface (memoryRegion size base k) S).WritesWhatItSays (objContents S k) :=
  serves_timed (serves_memoryRegion Sh size base k hS) hg

/-- **C118, sparse memory regions.** -/
theorem C118_sparse_region (Sh : Nat → Bool × Nat) (size : Nat) (base : Option Int) (k : Nat) (hS : size ≤ (Sh k).2) (hk : (Sh k).1 = true)
    (S : Nat → Heap) (hg : ∀ t, Good Sh (S t)) :
    (Dev.ofIface (sparseMemoryRegion size base k) S).ReadsWhatIsThere (objContents S k) ∧
    (Dev.ofIface (sparseMemoryRegion size base k) S).WritesWhatItSays (objContents S k) :=
  serves_timed (serves_sparseMemoryRegion Sh size base k hS hk) hg

section masters

variable (F : Far Memory) (hp : F.Paced) (H : ∀ n, Multi.RamCalls F.E F.st F.evs n)

include hp H

/-- **C118, bus masters, reads.** A bus master of any kind, connected to a RAM (which other masters and the test bench may use too), reads what is there: if a
call returns a response, not `None`, this holds the requested number of bytes, each of which the memory had at its address at some instant during the call. -/
theorem C118_master_read (p : Nat) :
    (F.axiMaster p).ReadsWhatIsThere F.contents ∧ (F.liteMaster p).ReadsWhatIsThere F.contents ∧
    (F.apbMaster p).ReadsWhatIsThere F.contents := by
  refine ⟨?_, ?_, ?_⟩
  · rintro a n i j o d (⟨q, e, _, _, _, _, h⟩ | ⟨op, rfl, rfl, h⟩) hd
    · cases h
    · refine Far.awaitRead_found hp H ?_ rfl h hd
      rintro t d r ⟨got, _, cmd, _, _, hc, _⟩
      have := Axi.acceptRead_ok ((H 0).ports.std p) hc
      omega
  · rintro a n i j o d (⟨q, e, _, _, h⟩ | ⟨op, rfl, rfl, h⟩) hd
    · cases h
    · refine Far.awaitRead_found hp H ?_ rfl h hd
      rintro t d r ⟨got, _, cmd, hc, _⟩
      simp only [Word.acceptRead] at hc
      split at hc
      · cases hc
      split at hc
      · cases hc
      · omega
  · rintro a n i j o d (⟨q, e, _, _, h⟩ | ⟨op, prot, ha, h⟩) hd
    · cases h
    · refine Far.awaitRead_found hp H ?_ (by simp only [Tx.reads, ha]) h hd
      rintro t d r ⟨got, _, hc⟩
      rw [ha] at hc
      simp only [Apb.Call.outcome, Word.acceptRead] at hc
      by_cases h1 : a < 0 ∨ a ≥ 2 ^ (F.E.apb p).addrWidth
      · rw [if_pos h1] at hc; cases hc
      · rw [if_neg h1] at hc
        by_cases h2 : n < 0
        · rw [if_pos h2] at hc; cases hc
        · omega

/-- **C118, bus masters, writes, with a response.** If a write of a bus master returns a response, not `None`, its data was stored during the call. -/
theorem C118_master_write (p : Nat) (a : Int) (d : Bytes) (i j : Nat) (rs : Resp)
    (h : (F.axiMaster p).Write a d i j (.ok (some rs)) ∨ (F.liteMaster p).Write a d i j (.ok (some rs)) ∨
      (F.apbMaster p).Write a d i j (.ok (some rs))) : i ≤ j ∧ Stored F.contents a d i j := by
  rcases h with (⟨q, u, e, _, _, _, h⟩ | ⟨op, rfl, rfl, h⟩) | (⟨q, e, _, _, h⟩ | ⟨op, rfl, rfl, h⟩) |
    (⟨q, e, _, _, h⟩ | ⟨op, prot, ha, h⟩)
  · cases h
  · refine Far.awaitWrite_stored hp H (by simp) ?_ rfl h
    rintro t r ⟨got, _, cmd, _, _, _, _, _, _, hc, _⟩
    have := (Axi.acceptWrite_ok ((H 0).ports.std p) hc).2.2.2.1
    omega
  · cases h
  · refine Far.awaitWrite_stored hp H (by simp) ?_ rfl h
    rintro t r ⟨got, _, cmd, _, hc, _⟩
    simp only [Word.acceptWrite] at hc
    split at hc
    · cases hc
    · omega
  · cases h
  · refine Far.awaitWrite_stored hp H (by simp) ?_ (by simp only [Tx.writes, ha]) h
    rintro t r ⟨got, _, hc⟩
    rw [ha] at hc
    simp only [Apb.Call.outcome, Word.acceptWrite] at hc
    by_cases h1 : a < 0 ∨ a ≥ 2 ^ (F.E.apb p).addrWidth
    · rw [if_pos h1] at hc; cases hc
    · omega

/-- **C118, bus masters, writes (partial).** If no write of the port is dropped by a reset, a write that returns has stored its data during the call. Without the
hypothesis this is false: see `C118_write_lost_violation`. -/
theorem C118_master_write_partial (p : Nat) :
    ((∀ op t, ¬ F.flushed (.axiW p op) t) → (F.axiMaster p).WritesWhatItSays F.contents) ∧
    ((∀ op t, ¬ F.flushed (.liteW p op) t) → (F.liteMaster p).WritesWhatItSays F.contents) ∧
    ((∀ op t, ¬ F.flushed (.apb p op) t) → (F.apbMaster p).WritesWhatItSays F.contents) := by
  refine ⟨fun hf a d i j r h => ?_, fun hf a d i j r h => ?_, fun hf a d i j r h => ?_⟩
  · cases r with
    | some rs => exact C118_master_write F hp H p a d i j rs (.inl h)
    | none =>
      rcases h with ⟨q, u, e, _, _, _, h⟩ | ⟨op, _, _, _, _, ⟨rs, _, h⟩ | ⟨h, _⟩⟩
      · cases h
      · cases h
      · exact absurd h (hf op j)
  · cases r with
    | some rs => exact C118_master_write F hp H p a d i j rs (.inr (.inl h))
    | none =>
      rcases h with ⟨q, e, _, _, h⟩ | ⟨op, _, _, _, _, ⟨rs, _, h⟩ | ⟨h, _⟩⟩
      · cases h
      · cases h
      · exact absurd h (hf op j)
  · cases r with
    | some rs => exact C118_master_write F hp H p a d i j rs (.inr (.inr h))
    | none =>
      rcases h with ⟨q, e, _, _, h⟩ | ⟨op, prot, _, _, _, ⟨rs, _, h⟩ | ⟨h, _⟩⟩
      · cases h
      · cases h
      · exact absurd h (hf op j)

end masters

/-! ### What is written is read back -/

/-- **C118, read back.** Through any object that reads what is there and writes what it says: a read, begun after a write to the same address has returned, gives
the bytes written, if from the beginning of the write to the end of the read the bytes change only to what was written. -/
theorem C118_read_back (D : Dev) (V : Contents) (hR : D.ReadsWhatIsThere V) (hW : D.WritesWhatItSays V) (a : Int) (d : Bytes) (i j i' j' : Nat)
    (r : Option Resp) (o : Obj) (d' : Bytes) (hw : D.Write a d i j (.ok r)) (hr : D.Read a d.length i' j' (.ok o)) (hb : o.toBytes = .ok d')
    (hij : j ≤ i') (hch : ∀ t, i ≤ t → t < j' → ∀ k < d.length, V (t + 1) (a + k) ≠ V t (a + k) → d[k]? = some (V (t + 1) (a + k))) : d' = d := by
  obtain ⟨_, hl, _, s, _, h2⟩ := hR _ _ _ _ _ _ hr hb
  obtain ⟨_, t, _, h1⟩ := hW _ _ _ _ _ hw
  apply List.ext_getElem?
  intro k
  by_cases hk : k < d.length
  · obtain ⟨a1, a2, a3⟩ := h1 k hk
    obtain ⟨b1, b2, b3⟩ := h2 k (by omega)
    rw [b3]
    obtain ⟨e, he⟩ := Nat.exists_eq_add_of_le (show t k + 1 ≤ s k by omega)
    rw [he]
    have : ∀ e, t k + 1 + e ≤ s k → some (V (t k + 1 + e) (a + k)) = d[k]? := by
      intro e
      induction e with
      | zero => intro _; exact a3.symm
      | succ e ih =>
        intro h
        by_cases hc : V (t k + 1 + e + 1) (a + k) = V (t k + 1 + e) (a + k)
        · rw [← Nat.add_assoc, hc]; exact ih (by omega)
        · exact (hch (t k + 1 + e) (by omega) (by omega) k hk hc).symm
    exact this e (by omega)
  · rw [List.getElem?_eq_none (by omega), List.getElem?_eq_none (by omega)]

/-! ### A concrete case

An address space with a memory region at addresses 0 to 7 and a window into the address range of an AXI-lite master at addresses 8 to 19. A write of six bytes
to address 6 is done in two parts: the first at instant 0, the second by an operation of the master from instant 1 to instant 9. Then they are read back:
from the memory region at instant 9, and by an operation of the master from instant 10 to instant 18. -/

namespace TimedEx

def regs : List (Reg Heap) :=
  [⟨memoryRegion 8 none 0, 0, none, some 0⟩, ⟨memoryRegion 65536 none 1, 8, some 12, some 4⟩]

def sp : AddressSpace Heap := (AddressSpace.mk 64 none []).registerAll regs

def h0 : Heap := fun _ => .buf (List.replicate 8 7)

def hist : Nat → Heap
  | 0 => h0
  | _ + 1 => h0.set 0 (.buf [7, 7, 7, 7, 7, 7, 1, 2])

def exE : Ports Memory := { Multi.exE with lr := fun _ _ => { address := 4, length := 4 } }

def exR : LiteOps.Op Word.RXfer := ⟨0, [⟨4, 2⟩]⟩

def good : List MultiEv :=
  [.liteR 0 (.reset false), .liteW 0 (.reset false), .liteW 0 (.master (.write LiteOps.exW1)), .liteW 0 (.master .take), .liteW 0 .send,
   .liteW 0 .serve, .liteW 0 .deliver, .liteW 0 (.master .respTake), .liteW 0 (.master .respGet), .liteW 0 (.master .respDone),
   .liteR 0 (.master (.write exR)), .liteR 0 (.master .take), .liteR 0 .send, .liteR 0 .serve, .liteR 0 .deliver,
   .liteR 0 (.master .respTake), .liteR 0 (.master .respGet), .liteR 0 (.master .respDone)]

/-- The master is reset while its operation is waiting for the slave. -/
def bad : List MultiEv := good.take 5 ++ [.liteW 0 (.reset true)]

def now (t : Nat) : Nat := if t = 0 then 2 else if t ≤ 9 then t + 1 else t

def far (E : Ports Memory) (evs : List MultiEv) : Far Memory := { E := E, st := LiteOps.exM, evs := evs, now := now }

def devs (F : Far Memory) (e : Entry Heap) : Dev :=
  if e.base = 0 then Dev.ofIface (memoryRegion 8 none 0) hist else F.liteMaster 0

/-- A target that fails. -/
def failing : Target Memory := { write := fun _ _ m => (.error .exception, m), read := fun _ _ m => (.error .exception, m) }

def failE : Ports Memory := { exE with t := failing }

theorem sp_regions : sp.regions = [⟨0, 8, some 0, memoryRegion 8 none 0⟩, ⟨8, 12, some 4, memoryRegion 65536 none 1⟩] := rfl

theorem spaceWrite {F : Far Memory} {j : Nat} {r : Option Resp} (h : (F.liteMaster 0).Write 4 [5, 6, 7, 8] 1 j (.ok r)) :
    (Dev.space sp (devs F)).Write 6 [1, 2, 5, 6, 7, 8] 0 j (.ok none) := by
  have h1 : sp.findRegions 6 (([1, 2, 5, 6, 7, 8] : Bytes).length : Int) = .ok sp.regions := rfl
  simp only [Dev.space, h1]
  refine ⟨1, .ok none, ⟨rfl, rfl, rfl⟩, j, .ok r, h, ?_⟩
  exact ⟨rfl, rfl⟩

theorem master {E : Ports Memory} {evs : List MultiEv} {j : Nat} {r : Option Resp} (he : E.lw 0 1 = { address := 4, data := [5, 6, 7, 8] })
    (h : (far E evs).awaitWrite (.liteW 0 LiteOps.exW1) 1 j (.ok r)) : ((far E evs).liteMaster 0).Write 4 [5, 6, 7, 8] 1 j (.ok r) :=
  .inr ⟨LiteOps.exW1, by show (E.lw 0 1).address = _; rw [he], by show (E.lw 0 1).data = _; rw [he], h⟩

/-- The write returns at instant 9. -/
theorem good_write : (Dev.space sp (devs (far exE good))).Write 6 [1, 2, 5, 6, 7, 8] 0 9 (.ok none) := by
  refine spaceWrite (master (r := some .okay) rfl ⟨⟨?_, ?_⟩, by omega, .inl ⟨.okay, ⟨[.ok .okay], ?_, ?_⟩, rfl⟩⟩)
  · show ¬ _ ∈ ((Multi.at_ exE LiteOps.exM good 2).liteW 0).m.issued
    decide +kernel
  · show _ ∈ ((Multi.at_ exE LiteOps.exM good 3).liteW 0).m.issued
    decide +kernel
  · show _ ∈ ((Multi.at_ exE LiteOps.exM good 10).liteW 0).m.results
    decide +kernel
  · exact ⟨⟨4, 4, 2⟩, [.okay], by decide +kernel, rfl, by decide +kernel⟩

/-- The write returns at instant 5, although its last four bytes are dropped. -/
theorem bad_write : (Dev.space sp (devs (far exE bad))).Write 6 [1, 2, 5, 6, 7, 8] 0 5 (.ok none) := by
  refine spaceWrite (master (r := none) rfl ⟨⟨?_, ?_⟩, by omega, .inr ⟨?_, rfl⟩⟩)
  · show ¬ _ ∈ ((Multi.at_ exE LiteOps.exM bad 2).liteW 0).m.issued
    decide +kernel
  · show _ ∈ ((Multi.at_ exE LiteOps.exM bad 3).liteW 0).m.issued
    decide +kernel
  · show _ ∈ ((Multi.at_ exE LiteOps.exM bad 6).liteW 0).m.results
    decide +kernel

/-- The slave answers SLVERR; the write of the space returns normally. -/
theorem fail_write : ((far failE good).liteMaster 0).Write 4 [5, 6, 7, 8] 1 9 (.ok (some .slverr)) ∧
    (Dev.space sp (devs (far failE good))).Write 6 [1, 2, 5, 6, 7, 8] 0 9 (.ok none) := by
  have h : ((far failE good).liteMaster 0).Write 4 [5, 6, 7, 8] 1 9 (.ok (some .slverr)) := by
    refine master rfl ⟨⟨?_, ?_⟩, by omega, .inl ⟨.slverr, ⟨[.ok .slverr], ?_, ?_⟩, rfl⟩⟩
    · show ¬ _ ∈ ((Multi.at_ failE LiteOps.exM good 2).liteW 0).m.issued
      decide +kernel
    · show _ ∈ ((Multi.at_ failE LiteOps.exM good 3).liteW 0).m.issued
      decide +kernel
    · show _ ∈ ((Multi.at_ failE LiteOps.exM good 10).liteW 0).m.results
      decide +kernel
    · exact ⟨⟨4, 4, 2⟩, [.slverr], by decide +kernel, rfl, by decide +kernel⟩
  exact ⟨h, spaceWrite h⟩

theorem paced (E : Ports Memory) (evs : List MultiEv) : (far E evs).Paced := by
  intro t
  simp only [far, now]
  split <;> split <;> repeat' split
  all_goals omega

/-- Histories in which only AXI-lite port 0 is used. -/
def uses : MultiEv → Bool
  | .liteW i _ => i == 0
  | .liteR i _ => i == 0
  | _ => false

theorem calls {evs : List MultiEv} (hu : evs.all uses = true)
    (hi : ((Multi.at_ exE LiteOps.exM evs evs.length).liteW 0).m.issued = [LiteOps.exW1])
    (hr : ((Multi.at_ exE LiteOps.exM evs evs.length).liteR 0).m.issued.Sublist [exR]) (n : Nat) :
    Multi.RamCalls exE LiteOps.exM evs n := by
  have hu : ∀ e ∈ evs, uses e = true := List.all_eq_true.1 hu
  refine Multi.RamCalls.all ?_ n
  have a1 : ∀ i, ((Multi.at_ exE LiteOps.exM evs evs.length).axiW i) = {} := fun i =>
    Multi.unused_axiW (fun j e he => by have := hu _ he; simp [uses] at this) _
  have a2 : ∀ i, ((Multi.at_ exE LiteOps.exM evs evs.length).axiR i) = {} := fun i =>
    Multi.unused_axiR (fun j e he => by have := hu _ he; simp [uses] at this) _
  have a3 : ∀ i, i ≠ 0 → ((Multi.at_ exE LiteOps.exM evs evs.length).liteW i) = {} := fun i h =>
    Multi.unused_liteW (fun j e he => by have := hu _ he; simp only [uses, beq_iff_eq] at this; omega) _
  have a4 : ∀ i, i ≠ 0 → ((Multi.at_ exE LiteOps.exM evs evs.length).liteR i) = {} := fun i h =>
    Multi.unused_liteR (fun j e he => by have := hu _ he; simp only [uses, beq_iff_eq] at this; omega) _
  have a5 : ∀ i, ((Multi.at_ exE LiteOps.exM evs evs.length).apb i) = Apb.Sys.start LiteOps.exM := fun i =>
    Multi.unused_apb (fun j e he => by have := hu _ he; simp [uses] at this) _
  have key : ∀ x : Tx, x.issued (Multi.at_ exE LiteOps.exM evs evs.length) →
      x = .liteW 0 LiteOps.exW1 ∨ x = .liteR 0 exR := by
    intro x h
    cases x with
    | axiW i op => simp only [Tx.issued] at h; rw [a1] at h; cases h
    | axiR i op => simp only [Tx.issued] at h; rw [a2] at h; cases h
    | liteW i op =>
      simp only [Tx.issued] at h
      by_cases h0 : i = 0
      · subst h0; rw [hi] at h; simp only [List.mem_singleton] at h; rw [h]; exact .inl rfl
      · rw [a3 i h0] at h; cases h
    | liteR i op =>
      simp only [Tx.issued] at h
      by_cases h0 : i = 0
      · subst h0
        have := hr.subset h
        simp only [List.mem_singleton] at this; rw [this]; exact .inr rfl
      · rw [a4 i h0] at h; cases h
    | apb i op => simp only [Tx.issued] at h; rw [a5] at h; cases h
  exact {
    ram := rfl
    poke := rfl
    ports := ⟨Multi.exPorts.std, Multi.exPorts.idsW, Multi.exPorts.idsR⟩
    lite := fun _ => by show 0 < 4; decide
    apb := fun _ => by show 0 < 4; decide
    wf := ⟨rfl, trivial⟩
    size := by decide
    once := {
      liteW := fun i => by
        by_cases h0 : i = 0
        · subst h0; rw [hi]; decide
        · rw [a3 i h0]; exact List.nodup_nil
      liteR := fun i => by
        by_cases h0 : i = 0
        · subst h0; exact (show [exR].Nodup by decide).sublist hr
        · rw [a4 i h0]; exact List.nodup_nil
      apb := fun i => by rw [a5]; exact List.nodup_nil }
    incrW := fun i op h => by rcases key (.axiW i op) h with h | h <;> cases h
    incrR := fun i op h => by rcases key (.axiR i op) h with h | h <;> cases h
    makesW := fun i op h => by
      rcases key (.liteW i op) h with h | h <;> cases h
      exact ⟨⟨4, 4, 2⟩, by decide +kernel, by decide +kernel⟩
    makesR := fun i op h => by
      rcases key (.liteR i op) h with h | h <;> cases h
      exact ⟨⟨4, 4, 2⟩, by decide +kernel, by decide +kernel⟩
    makesA := fun i op h => by rcases key (.apb i op) h with h | h <;> cases h
    fitW := fun x A d h hw => by rcases key x h with rfl | rfl <;> cases hw; decide
    fitR := fun x A N h hw => by rcases key x h with rfl | rfl <;> cases hw; decide
    direct := fun t a d _ h => by
      have := hu _ (List.mem_of_getElem? h)
      simp [uses] at this }

theorem goodCalls (n : Nat) : Multi.RamCalls exE LiteOps.exM good n := calls (by decide) (by decide +kernel) (by decide +kernel) n
theorem badCalls (n : Nat) : Multi.RamCalls exE LiteOps.exM bad n := calls (by decide) (by decide +kernel) (by decide +kernel) n

/-- What is behind the space. -/
def seen (F : Far Memory) : Contents := fun t x => if x < 8 then objContents hist 0 t x else F.contents t (x - 8 + 4)

theorem seen_ok (F : Far Memory) :
    SeenThrough sp (fun e => if e.base = 0 then objContents hist 0 else F.contents) (seen F) := by
  intro e he x h1 h2 t
  rw [sp_regions] at he
  simp only [List.mem_cons, List.not_mem_nil, or_false] at he
  rcases he with rfl | rfl
  · simp only at h1 h2
    simp only [seen, if_pos (show x < 8 by omega), if_true]
    congr 1; omega
  · simp only at h1 h2
    simp only [seen, if_neg (show ¬ x < 8 by omega)]
    rfl

theorem hist_good (t : Nat) : Good (fun _ => (false, 8)) (hist t) := by
  intro k
  have h : ∀ l : Bytes, l.length = 8 → (Backing.buf l).WF ∧ (Backing.buf l).shape = (false, 8) := fun l hl =>
    ⟨⟨rfl, trivial⟩, by simp only [Backing.shape, hl]⟩
  cases t with
  | zero => exact h _ (by simp)
  | succ t =>
    simp only [hist, Heap.set]
    split
    · exact h _ rfl
    · exact h _ (by simp)

theorem noFlush (op : LiteOps.Op Word.WXfer) (t : Nat) : ¬ (far exE good).flushed (.liteW 0 op) t := by
  intro h
  have h : (op, none) ∈ ((Multi.at_ exE LiteOps.exM good (now t)).liteW 0).m.results := h
  have : ∀ n < 19, ∀ x ∈ ((Multi.at_ exE LiteOps.exM good n).liteW 0).m.results, x.2.isSome = true := by decide +kernel
  rw [Multi.at_min] at h
  have := this _ (by show min _ 18 < 19; omega) _ h
  cases this

/-- The read returns at instant 18. -/
theorem good_read : (Dev.space sp (devs (far exE good))).Read 6 6 9 18 (.ok (.bytes [1, 2, 5, 6, 7, 8])) := by
  have h1 : sp.findRegions 6 6 = .ok sp.regions := rfl
  simp only [Dev.space, h1]
  refine ⟨10, .ok (.bytes [1, 2]), ⟨rfl, rfl, by rfl⟩, 18, .ok (.resp [5, 6, 7, 8] .okay), .inr ⟨exR, rfl, rfl, ⟨?_, ?_⟩, by omega, .inl
    ⟨[5, 6, 7, 8], .okay, ⟨[(0x08070605, .okay)], ?_, ?_⟩, rfl⟩⟩, rfl, rfl⟩
  · show ¬ _ ∈ ((Multi.at_ exE LiteOps.exM good 10).liteR 0).m.issued
    decide +kernel
  · show _ ∈ ((Multi.at_ exE LiteOps.exM good 11).liteR 0).m.issued
    decide +kernel
  · show _ ∈ ((Multi.at_ exE LiteOps.exM good 18).liteR 0).m.results
    decide +kernel
  · exact ⟨⟨4, 4, 2⟩, by decide +kernel, by decide +kernel⟩

/-- The hypotheses of the theorems are met. -/
theorem writes : (Dev.space sp (devs (far exE good))).WritesWhatItSays (seen (far exE good)) :=
  (C118_space_write (s := sp) ⟨64, none, regs, rfl⟩ (by decide) (devs (far exE good)) _ _ (seen_ok _) (by
    intro e he
    simp only [devs]
    split
    · exact (C118_memory_region (fun _ => (false, 8)) 8 none 0 (by decide) hist hist_good).2
    · exact (C118_master_write_partial _ (paced _ _) goodCalls 0).2.1 noFlush)).1

theorem reads : (Dev.space sp (devs (far exE good))).ReadsWhatIsThere (seen (far exE good)) :=
  (C118_space_read (s := sp) ⟨64, none, regs, rfl⟩ (by decide) (devs (far exE good)) _ _ (seen_ok _) (by
    intro e he
    simp only [devs]
    split
    · exact (C118_memory_region (fun _ => (false, 8)) 8 none 0 (by decide) hist hist_good).1
    · exact (C118_master_read _ (paced _ _) goodCalls 0).2.1)).1

example : Stored (seen (far exE good)) 6 [1, 2, 5, 6, 7, 8] 0 9 := (writes _ _ _ _ _ good_write).2

example (d : Bytes) (h : (Dev.space sp (devs (far exE good))).Read 6 6 9 18 (.ok (.bytes d))) : d = [1, 2, 5, 6, 7, 8] := by
  refine C118_read_back _ _ reads writes 6 [1, 2, 5, 6, 7, 8] 0 9 9 18 none (.bytes d) d good_write h rfl (Nat.le_refl 9) ?_
  have : ∀ t < 18, ∀ k < 6, seen (far exE good) (t + 1) (6 + (k : Nat)) ≠ seen (far exE good) t (6 + (k : Nat)) →
    ([1, 2, 5, 6, 7, 8] : Bytes)[k]? = some (seen (far exE good) (t + 1) (6 + (k : Nat))) := by decide +kernel
  exact fun t _ h1 k hk => this t h1 k hk

/-- Through a window on the address space. -/
example : ((Dev.space sp (devs (far exE good))).window 5 10).ReadsWhatIsThere (fun t x => seen (far exE good) t (x + 5)) ∧
    ((Dev.space sp (devs (far exE good))).window 5 10).Read 1 6 9 18 (.ok (.bytes [1, 2, 5, 6, 7, 8])) :=
  ⟨C118_window_read reads 5 10, good_read⟩

/-- What `C118_space_succeeds` asks for is met by memory regions of the size they are registered with, or larger. -/
example (S : Nat → Heap) (hg : ∀ t, Good (fun _ => (false, 65536)) (S t)) (i j : Nat) (r : Py Obj)
    (h : (Dev.space sp fun e => Dev.ofIface (memoryRegion 65536 none 1) S).Read 6 6 i j r) : ∃ o, r = .ok o := by
  refine (C118_space_succeeds (s := sp) ⟨64, none, regs, rfl⟩ (by rw [sp_regions]; simp) _ 6 (by omega) (by decide)).1 6 (by omega) ?_ ?_ i j r h
  · intro x h1 h2
    rw [sp_regions]
    by_cases hx : x < 8
    · exact ⟨_, List.mem_cons_self .., by simp only; omega, by simp only; omega⟩
    · exact ⟨_, List.mem_cons_of_mem _ (List.mem_cons_self ..), by simp only; omega, by simp only; omega⟩
  · rintro e he b m i j r ⟨hm, hb, hy⟩ ⟨_, _, hr⟩
    have hlim : ∀ y a c, standsFor e a c y → 0 ≤ a → 0 ≤ y ∧ y < 65536 := by
      rintro y a c ⟨x, h1, h2, h3, h4, h5⟩ _
      rw [sp_regions] at he
      simp only [List.mem_cons, List.not_mem_nil, or_false] at he
      rcases he with rfl | rfl <;> simp only at h3 h4 h5 <;> omega
    have hb' := hlim _ _ _ hb (by omega)
    have hl : b + m ≤ 65536 := by
      by_cases h0 : m = 0
      · omega
      · have := hlim _ _ _ (hy (b + m - 1) (by omega) (by omega)) (by omega); omega
    obtain ⟨b, rfl⟩ := Int.eq_ofNat_of_zero_le hb'.1
    obtain ⟨m, rfl⟩ := Int.eq_ofNat_of_zero_le hm
    rw [(serves_memoryRegion (fun _ => (false, 65536)) 65536 none 1 (Nat.le_refl _)).read (S i) (hg i) b m (by omega) (by omega)] at hr
    exact ⟨_, _, hr, rfl⟩

end TimedEx

/-- **C118, violation.** A write of a bus master that a reset drops returns `None`, and an address space over it returns normally: here the last four bytes of a
write through an address space are never stored, though the write returned. -/
theorem C118_write_lost_violation :
    (¬ ∀ (F : Far Memory) (p : Nat), F.Paced → (∀ n, Multi.RamCalls F.E F.st F.evs n) → (F.liteMaster p).WritesWhatItSays F.contents) ∧
    ∃ (s : AddressSpace Heap) (D : Entry Heap → Dev) (F : Far Memory), Registered s ∧ (∃ e ∈ s.regions, e.base = 8 ∧ D e = F.liteMaster 0) ∧
      F.Paced ∧ (∀ n, Multi.RamCalls F.E F.st F.evs n) ∧ (Dev.space s D).Write 6 [1, 2, 5, 6, 7, 8] 0 5 (.ok none) ∧
      ∀ t a, 0 ≤ a → a < 16 → F.contents t a = 7 := by
  have hm : ∀ t a, 0 ≤ a → a < 16 → (TimedEx.far TimedEx.exE TimedEx.bad).contents t a = 7 := by
    intro t a h0 h1
    simp only [Far.contents, Far.at_, TimedEx.far]
    rw [Multi.at_min]
    have : ∀ n < 7, ∀ a < 16, (Multi.at_ TimedEx.exE LiteOps.exM TimedEx.bad n).mem.contents a = 7 := by decide +kernel
    exact this _ (by show min _ 6 < 7; omega) _ (by omega)
  constructor
  · intro h
    have := h (TimedEx.far TimedEx.exE TimedEx.bad) 0 (TimedEx.paced _ _) TimedEx.badCalls 4 [5, 6, 7, 8] 1 5 none (TimedEx.master rfl
      ⟨⟨by show ¬ _ ∈ ((Multi.at_ TimedEx.exE LiteOps.exM TimedEx.bad 2).liteW 0).m.issued; decide +kernel,
        by show _ ∈ ((Multi.at_ TimedEx.exE LiteOps.exM TimedEx.bad 3).liteW 0).m.issued; decide +kernel⟩, by omega,
       .inr ⟨by show _ ∈ ((Multi.at_ TimedEx.exE LiteOps.exM TimedEx.bad 6).liteW 0).m.results; decide +kernel, rfl⟩⟩)
    obtain ⟨_, t, _, ht⟩ := this
    have := (ht 0 (by decide)).2.2
    rw [hm _ _ (by omega) (by omega)] at this
    exact absurd this (by decide)
  · exact ⟨TimedEx.sp, TimedEx.devs _, TimedEx.far TimedEx.exE TimedEx.bad, ⟨64, none, TimedEx.regs, rfl⟩,
      ⟨⟨8, 12, some 4, memoryRegion 65536 none 1⟩, by rw [TimedEx.sp_regions]; simp, rfl, rfl⟩,
      TimedEx.paced _ _, TimedEx.badCalls, TimedEx.bad_write, hm⟩

/-- **C118, violation.** An address space swallows error responses: here the slave behind a bus master reports SLVERR for a write, and nothing is stored, but the
write through the address space returns normally. -/
theorem C118_error_swallowed_violation :
    ∃ (s : AddressSpace Heap) (D : Entry Heap → Dev) (F : Far Memory), Registered s ∧ (∃ e ∈ s.regions, e.base = 8 ∧ D e = F.liteMaster 0) ∧
      F.Paced ∧ (F.liteMaster 0).Write 4 [5, 6, 7, 8] 1 9 (.ok (some .slverr)) ∧
      (Dev.space s D).Write 6 [1, 2, 5, 6, 7, 8] 0 9 (.ok none) ∧ ∀ t a, 0 ≤ a → a < 16 → F.contents t a = 7 := by
  have hm : ∀ t a, 0 ≤ a → a < 16 → (TimedEx.far TimedEx.failE TimedEx.good).contents t a = 7 := by
    intro t a h0 h1
    simp only [Far.contents, Far.at_, TimedEx.far]
    rw [Multi.at_min]
    have : ∀ n < 19, ∀ a < 16, (Multi.at_ TimedEx.failE LiteOps.exM TimedEx.good n).mem.contents a = 7 := by decide +kernel
    exact this _ (by show min _ 18 < 19; omega) _ (by omega)
  exact ⟨TimedEx.sp, TimedEx.devs _, TimedEx.far TimedEx.failE TimedEx.good, ⟨64, none, TimedEx.regs, rfl⟩,
    ⟨⟨8, 12, some 4, memoryRegion 65536 none 1⟩, by rw [TimedEx.sp_regions]; simp, rfl, rfl⟩,
    TimedEx.paced _ _, TimedEx.fail_write.1, TimedEx.fail_write.2, hm⟩

end Verif
