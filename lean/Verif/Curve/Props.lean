import Verif.Curve.MathLemmas
import Verif.Simple.Props

/-
Properties of the stable, rated and degen pools: C31-C37 and the curve parts of C07 and C09.
-/

namespace Verif

open CurvePool

/-! ### Concrete pools used by the examples -/

def exC : AccountId := ['c']

/-- A 3-token stable pool with 18, 6 and 24 decimals, 10^5 of each token. -/
def exStable : CurvePool :=
  { kind := .stable, toks := [exA, exB, exC], decs := [18, 6, 24],
    cAmts := [10 ^ 23, 10 ^ 23, 10 ^ 23], totalFee := 25,
    shares := (FMap.empty.insert exLP (3 * 10 ^ 23)).insert exRef 0, supply := 3 * 10 ^ 23,
    initAmp := 100, targetAmp := 1000, initTime := 10 ^ 15, stopTime := 10 ^ 15 + 10 ^ 14 }

/-- A 2-token rated pool; the second token is worth 1.5. -/
def exRated : CurvePool :=
  { kind := .rated, toks := [exA, exB], decs := [24, 24],
    cAmts := [10 ^ 29, 8 * 10 ^ 28], totalFee := 5,
    shares := (FMap.empty.insert exLP (2 * 10 ^ 29)).insert exRef 0, supply := 2 * 10 ^ 29,
    initAmp := 240, targetAmp := 240, initTime := 0, stopTime := 0 }

def exEnv : CurveEnv := { now := 10 ^ 15 + 5 * 10 ^ 13, rates := [10 ^ 24, 15 * 10 ^ 23], valid := true }

/-! ### C31: amplification -/

/-- The amplification data of a pool at time `now`. -/
structure CurvePool.AmpOk (p : CurvePool) (now : Nat) : Prop where
  init : 1 ≤ p.initAmp ∧ p.initAmp ≤ 10 ^ 6
  target : 1 ≤ p.targetAmp ∧ p.targetAmp ≤ 10 ^ 6
  time : p.initTime ≤ now

/-- **C31**, effective value. At every time not before the last start the amplification used by the
pool exists and lies between the start and the target value. -/
theorem C31_amp_between (p : CurvePool) (env : CurveEnv) (h : p.AmpOk env.now)
    (hnow : env.now < 2 ^ 64) :
    (p.inv env).amp = .ok (p.getAmp env) ∧
    min p.initAmp p.targetAmp ≤ p.getAmp env ∧ p.getAmp env ≤ max p.initAmp p.targetAmp ∧
    1 ≤ p.getAmp env ∧ p.getAmp env ≤ 10 ^ 6 := by
  obtain ⟨a, ha⟩ := computeAmp_total (i := p.initAmp) (t := p.targetAmp) (e := p.stopTime)
    h.init.2 h.target.2 h.time hnow
  have hb := computeAmp_between ha
  have h1 := h.init
  have h2 := h.target
  have hga : p.getAmp env = a := by
    unfold getAmp CurvePool.inv
    simp only [ha]
    exact Nat.mod_eq_of_lt (by omega)
  rw [hga]
  exact ⟨ha, hb.1, hb.2, by omega, by omega⟩

example : exStable.AmpOk exEnv.now ∧ exStable.getAmp exEnv = 550 := by
  refine ⟨⟨by decide, by decide, by decide⟩, by decide +kernel⟩

/-- **C31**, monotone. During one ramp the amplification moves from the start value towards the
target value and never back. -/
theorem C31_amp_monotone (p : CurvePool) (e1 e2 : CurveEnv) (h : p.AmpOk e1.now)
    (hle : e1.now ≤ e2.now) (hlt : e2.now < 2 ^ 64) :
    (p.initAmp ≤ p.targetAmp → p.getAmp e1 ≤ p.getAmp e2) ∧
    (p.targetAmp ≤ p.initAmp → p.getAmp e2 ≤ p.getAmp e1) := by
  have h' : p.AmpOk e2.now := ⟨h.init, h.target, h.time.trans hle⟩
  obtain ⟨a1, b1, c1, -⟩ := C31_amp_between p e1 h (by omega)
  obtain ⟨a2, b2, c2, -⟩ := C31_amp_between p e2 h' hlt
  have mono : ∀ w : Nat, w * (e1.now - p.initTime) / (p.stopTime - p.initTime) ≤
      w * (e2.now - p.initTime) / (p.stopTime - p.initTime) := fun w =>
    Nat.div_le_div_right (Nat.mul_le_mul_left _ (by omega))
  have m1 := mono (p.targetAmp - p.initAmp)
  have m2 := mono (p.initAmp - p.targetAmp)
  rcases computeAmp_ok a1 with ⟨g1, r1⟩ | ⟨-, g1, k1, r1⟩ | ⟨-, g1, k1, r1⟩ <;>
  rcases computeAmp_ok a2 with ⟨g2, r2⟩ | ⟨-, g2, k2, r2⟩ | ⟨-, g2, k2, r2⟩ <;>
  (constructor <;> intro hc <;> omega)

example : exStable.AmpOk (10 ^ 15) ∧ exStable.getAmp { exEnv with now := 10 ^ 15 } = 100 ∧
    exStable.getAmp { exEnv with now := 10 ^ 15 + 10 ^ 14 } = 1000 := by
  refine ⟨⟨by decide, by decide, by decide⟩, by decide +kernel, by decide +kernel⟩

/-- **C31**, end points. At the start of a ramp the value is the start value, from its end on the
target value. -/
theorem C31_amp_endpoints (p : CurvePool) (env : CurveEnv) (h : p.AmpOk env.now)
    (hnow : env.now < 2 ^ 64) :
    (env.now = p.initTime → p.initTime < p.stopTime → p.getAmp env = p.initAmp) ∧
    (p.stopTime ≤ env.now → p.getAmp env = p.targetAmp) := by
  obtain ⟨a1, -⟩ := C31_amp_between p env h hnow
  constructor
  · intro h1 h2
    rcases computeAmp_ok a1 with ⟨g1, r1⟩ | ⟨-, g1, k1, r1⟩ | ⟨-, g1, k1, r1⟩
    · omega
    · rw [r1, h1]; simp
    · rw [r1, h1]; simp
  · intro h1
    rcases computeAmp_ok a1 with ⟨g1, r1⟩ | ⟨-, g1, k1, r1⟩ | ⟨-, g1, k1, r1⟩ <;> omega

/-- **C31**, ramps. A successful ramp starts from the current effective value (so the value does not
jump), changes it by at most a factor 10 and lasts at least one day; it is refused within one day of
the start of the previous one. -/
theorem C31_ramp {p q : CurvePool} {future futureTime now : Nat}
    (h : p.ramp future futureTime now = .ok q) (env : CurveEnv) (henv : env.now = now)
    (hp : p.AmpOk now) (hnow : now < 2 ^ 64) :
    q.initAmp = p.getAmp env ∧ q.targetAmp = future ∧ q.initTime = now ∧
    q.stopTime = futureTime ∧ q.getAmp env = p.getAmp env ∧
    now + 86400 * 10 ^ 9 ≤ futureTime ∧ p.initTime + 86400 * 10 ^ 9 ≤ now ∧
    future ≤ 10 * p.getAmp env ∧ p.getAmp env ≤ 10 * future ∧
    1 ≤ future ∧ future < 10 ^ 6 := by
  subst henv
  obtain ⟨ha, -, -, hr⟩ := C31_amp_between p env hp hnow
  unfold ramp at h
  unpack at h
  obtain ⟨-, h1, -, h2, amp, hamp, h3, h4, h5, rfl⟩ := h
  unfold CurvePool.inv at ha
  simp only [hamp, Except.ok.injEq] at ha
  unfold MIN_RAMP_DURATION MAX_AMP MAX_AMP_CHANGE at *
  have hq : AmpOk { p with initAmp := amp, initTime := env.now, targetAmp := future,
                           stopTime := futureTime } env.now :=
    ⟨by simp only; omega, by simp only; omega, Nat.le_refl _⟩
  have he := (C31_amp_endpoints _ env hq hnow).1 rfl (by simp only; omega)
  refine ⟨ha, rfl, rfl, rfl, ?_, by omega, by omega, by omega, by omega, by omega, by omega⟩
  rw [he]; exact ha

example : (exStable.ramp 5000 (10 ^ 15 + 3 * 10 ^ 14) (10 ^ 15 + 2 * 10 ^ 14)).holds
    (fun q => q.initAmp = 1000 ∧ q.targetAmp = 5000) := by decide +kernel

/-- **C31**, stopping. Stopping a ramp freezes the current effective value for ever. -/
theorem C31_stop {p q : CurvePool} {now : Nat} (h : p.stopRamp now = .ok q) (env env' : CurveEnv)
    (henv : env.now = now) (hp : p.AmpOk now) (hnow : now < 2 ^ 64) (hlater : now ≤ env'.now)
    (hl : env'.now < 2 ^ 64) : q.getAmp env' = p.getAmp env := by
  subst henv
  obtain ⟨ha, -, -, hr⟩ := C31_amp_between p env hp hnow
  unfold stopRamp at h
  unpack at h
  obtain ⟨amp, hamp, rfl⟩ := h
  unfold CurvePool.inv at ha
  simp only [hamp, Except.ok.injEq] at ha
  have hq : AmpOk { p with initAmp := amp, targetAmp := amp, initTime := env.now,
                           stopTime := env.now } env'.now :=
    ⟨by simp only; omega, by simp only; omega, hlater⟩
  rw [(C31_amp_endpoints _ env' hq hl).2 hlater]
  exact ha

example : (exStable.stopRamp exEnv.now).holds (fun q => q.targetAmp = 550) := by decide +kernel

/-- No operation other than the two ramp operations touches the amplification data. -/
theorem CurvePool.AmpOk.run {p q : CurvePool} {env : CurveEnv} {op : CurveOp} (hp : p.AmpOk env.now)
    (hnow : env.now < 2 ^ 64) (h : p.run env op = .ok q) : q.AmpOk env.now := by
  have hmap : ∀ {α : Type} {x : R (CurvePool × α)}, (·.1) <$> x = .ok q → ∃ r, x = .ok (q, r) := by
    intro α x hx
    cases x with
    | error e => cases hx
    | ok v => obtain ⟨a, b⟩ := v; cases hx; exact ⟨b, rfl⟩
  have same : q.initAmp = p.initAmp → q.targetAmp = p.targetAmp → q.initTime = p.initTime →
      q.AmpOk env.now := by
    intro h1 h2 h3
    exact ⟨by rw [h1]; exact hp.init, by rw [h2]; exact hp.target, by rw [h3]; exact hp.time⟩
  cases op with
  | register a =>
    simp only [CurvePool.run, shareRegister] at h
    unpack at h
    obtain ⟨-, rfl⟩ := h; exact same rfl rfl rfl
  | unregister a =>
    simp only [CurvePool.run, shareUnregister] at h
    unpack at h
    obtain ⟨_, -, -, rfl⟩ := h; exact same rfl rfl rfl
  | transfer a b n =>
    simp only [CurvePool.run, shareTransfer] at h
    unpack at h
    obtain ⟨_, -, -, _, -, -, rfl⟩ := h; exact same rfl rfl rfl
  | add s am mn fees =>
    obtain ⟨n, h⟩ := hmap h
    obtain ⟨_, _, _, -, -, -, -, -, -, hm⟩ := CurvePool.addLiquidity_ok h
    exact same (by rw [hm.frame]) (by rw [hm.frame]) (by rw [hm.frame])
  | removeShares s n mins =>
    obtain ⟨n, h⟩ := hmap h
    obtain ⟨-, -, -, -, hf, -⟩ := removeByShares_ok h
    exact same (by rw [hf]) (by rw [hf]) (by rw [hf])
  | removeTokens s am mb fees =>
    obtain ⟨n, h⟩ := hmap h
    obtain ⟨_, _, _, -, -, -, -, -, -, hf, -⟩ := removeByTokens_ok h
    exact same (by rw [hf]) (by rw [hf]) (by rw [hf])
  | swap ti a tout mo fees =>
    obtain ⟨n, h⟩ := hmap h
    obtain ⟨_, _, _, _, _, _, -, -, -, -, -, -, -, -, -, -, -, -, hq⟩ := CurvePool.swap_ok h
    rcases swapFee_ok hq with ⟨rfl, -⟩ | ⟨-, -, _, _, _, -, -, -, hm⟩
    · exact same rfl rfl rfl
    · exact same (by rw [hm.frame]) (by rw [hm.frame]) (by rw [hm.frame])
  | setFee f =>
    simp only [CurvePool.run] at h
    split at h
    · cases h; exact same rfl rfl rfl
    · cases h
  | ramp f t =>
    obtain ⟨h1, h2, h3, -, -, -, -, -, -, h4, h5⟩ := C31_ramp h env rfl hp hnow
    obtain ⟨-, -, -, g1, g2⟩ := C31_amp_between p env hp hnow
    exact ⟨by omega, by omega, by omega⟩
  | stopRamp =>
    obtain ⟨ha, -, -, g1, g2⟩ := C31_amp_between p env hp hnow
    simp only [CurvePool.run, stopRamp] at h
    unpack at h
    obtain ⟨amp, hamp, rfl⟩ := h
    unfold CurvePool.inv at ha
    simp only [hamp, Except.ok.injEq] at ha
    exact ⟨by simp only; omega, by simp only; omega, Nat.le_refl _⟩

/-- **C31** over histories: in every state a newly created pool can reach, at every later time, the
amplification used by the pool is defined and in `[1, 10^6]`. -/
theorem C31_amp_history (kind : CurveKind) (tokens : List AccountId) (decs : List Nat)
    (amp fee : Nat) (p : CurvePool) (hnew : CurvePool.new kind tokens decs amp fee = .ok p)
    (t : Nat) (ops : List (CurveEnv × CurveOp)) (ht : Timed t ops) (env : CurveEnv)
    (hlast : lastTime t ops ≤ env.now) (hnow : env.now < 2 ^ 64) :
    ((p.history ops).inv env).amp = .ok ((p.history ops).getAmp env) ∧
    1 ≤ (p.history ops).getAmp env ∧ (p.history ops).getAmp env ≤ 10 ^ 6 := by
  have h0 : p.AmpOk t := by
    unfold CurvePool.new at hnew
    unpack at hnew
    obtain ⟨-, h1, h2, -, rfl⟩ := hnew
    unfold MIN_AMP at h1; unfold MAX_AMP at h2
    exact ⟨⟨h1, h2⟩, ⟨h1, h2⟩, Nat.zero_le _⟩
  have hall : ∀ (ops : List (CurveEnv × CurveOp)) (t : Nat) (p : CurvePool), Timed t ops →
      p.AmpOk t → (p.history ops).AmpOk (lastTime t ops) := by
    intro ops
    induction ops with
    | nil => intro t p _ hp; exact hp
    | cons o ops ih =>
      intro t p ht hp
      obtain ⟨t1, t2, t3⟩ := ht
      have hp' : p.AmpOk o.1.now := ⟨hp.init, hp.target, hp.time.trans t1⟩
      show ((match p.run o.1 o.2 with | .ok q => q | .error _ => p).history ops).AmpOk
        (lastTime o.1.now ops)
      cases hr : p.run o.1 o.2 with
      | error e => exact ih _ p t3 hp'
      | ok q => exact ih _ q t3 (hp'.run t2 hr)
  have hf := hall ops t p ht h0
  have hf' : (p.history ops).AmpOk env.now := ⟨hf.init, hf.target, hf.time.trans hlast⟩
  obtain ⟨a1, -, -, a2, a3⟩ := C31_amp_between _ env hf' hnow
  exact ⟨a1, a2, a3⟩

/-- A ramp from 50 to 400 that is stopped half way. -/
def exRampOps : List (CurveEnv × CurveOp) :=
  [({ exEnv with now := 10 ^ 15 }, .ramp 400 (10 ^ 15 + 10 ^ 14)), (exEnv, .stopRamp)]

example : Timed 0 exRampOps := ⟨by decide, by decide, by decide, by decide, trivial⟩
example : (CurvePool.new .stable [exA, exB] [18, 18] 50 5).holds
    (fun p => (p.history exRampOps).getAmp exEnv = 225) := by decide +kernel

/-! ### C33: balanced pools -/

/-- **C33**. With `n` equal balances `x` the computed invariant is exactly `n * x`, at any
amplification `A ≥ 1` (the bounds say that the intermediate numbers fit). -/
theorem C33_balanced_invariant (w n x A : Nat) (hA : 1 ≤ A) (hx : 0 < x) (hn : 0 < n)
    (hsum : x * n < 2 ^ 128) (hann : A * n ^ n < 2 ^ 128)
    (hbig : x * n * (x * n * (n + A * n ^ n)) < 2 ^ w) :
    computeD w (.ok A) (List.replicate n x) = .ok (n * x) := by
  have hpos : 0 < x * n := Nat.mul_pos hx hn
  have hnn : 0 < n ^ n := Nat.pow_pos hn
  have hannpos : 0 < A * n ^ n := Nat.mul_pos hA hnn
  have hsumEq : (List.replicate n x).sum = x * n := by simp [Nat.mul_comm]
  unfold computeD
  rw [sumU128_total (by rw [hsumEq]; omega), ok_bind, hsumEq]
  simp only [Nat.zero_add, List.length_replicate]
  rw [if_neg (by omega), ok_bind]
  have hle : n ^ n ≤ A * n ^ n := Nat.le_mul_of_pos_left _ hA
  rw [fit_ok.2 ⟨by omega, rfl⟩, ok_bind, mulW_ok.2 ⟨hann, rfl⟩, ok_bind]
  generalize hD : x * n = D at *
  generalize A * n ^ n = N at *
  have key : dStep w n N D (List.replicate n x) D = .ok D := by
    have e0 : D * (D * (n + N)) = D * (D * n) + D * (D * N) := by ring
    have e1 : D * n ≤ D * (D * n) := Nat.le_mul_of_pos_left _ hpos
    have e2 : D * N ≤ D * (D * N) := Nat.le_mul_of_pos_left _ hpos
    have e3 : D ≤ D * n := Nat.le_mul_of_pos_right _ hn
    have e4 : D * D ≤ D * (D * n) := Nat.mul_le_mul_left _ e3
    have e5 : D * (N - 1) + D = D * N := by
      rw [show D * (N - 1) + D = D * (N - 1 + 1) by ring]; congr 1; omega
    have e6 : D * (n + 1) = D * n + D := by ring
    unfold dStep
    have hdp := dProdLoop_balanced (w := w) (n := n) (x := x) (by omega) (by rw [hD]; exact hsum)
      (by rw [hD]; omega) n
    rw [hD] at hdp
    rw [hdp, ok_bind, mulW_ok.2 ⟨by omega, rfl⟩, ok_bind, mulW_ok.2 ⟨by omega, rfl⟩, ok_bind,
      addW_ok.2 ⟨by omega, rfl⟩, ok_bind, mulW_ok.2 ⟨by rw [← Nat.mul_add]; exact hbig, rfl⟩, ok_bind,
      subW_ok.2 ⟨show 1 ≤ N from hannpos, rfl⟩, ok_bind, mulW_ok.2 ⟨by omega, rfl⟩, ok_bind,
      mulW_ok.2 ⟨by omega, rfl⟩, ok_bind, addW_ok.2 ⟨by omega, rfl⟩, ok_bind,
      divW_ok.2 ⟨by omega, rfl⟩]
    congr 1
    rw [show D * (N - 1) + D * (n + 1) = D * n + D * N by omega]
    exact Nat.mul_div_cancel _ (by omega)
  unfold dLoop
  rw [key, ok_bind, if_pos (by simp [near]), Nat.mul_comm n x, hD]

/-- **C33**, empty pool. -/
theorem C33_empty_invariant (w n : Nat) (amp : R Nat) :
    computeD w amp (List.replicate n 0) = .ok 0 := by
  unfold computeD
  rw [sumU128_total (by simp), ok_bind]
  simp

/-- The size bounds of `C33_balanced_invariant` hold for the pools in use: up to 4 tokens, any
permitted amplification, and a total of 10^33 internal units (10^15 whole tokens). -/
example (x A : Nat) (hA : 1 ≤ A) (hA' : A ≤ 10 ^ 6) (hx : 0 < x) (hx' : x ≤ 10 ^ 32) :
    computeD 256 (.ok A) (List.replicate 4 x) = .ok (4 * x) := by
  apply C33_balanced_invariant _ _ _ _ hA hx (by norm_num)
  · omega
  · omega
  · have h1 : x * 4 ≤ 4 * 10 ^ 32 := by omega
    have h2 : 4 + A * 4 ^ 4 ≤ 4 + 10 ^ 6 * 4 ^ 4 := by omega
    calc x * 4 * (x * 4 * (4 + A * 4 ^ 4))
        ≤ 4 * 10 ^ 32 * (4 * 10 ^ 32 * (4 + 10 ^ 6 * 4 ^ 4)) :=
          Nat.mul_le_mul h1 (Nat.mul_le_mul h1 h2)
      _ < 2 ^ 256 := by norm_num

/-! ### C32: the curve bounds what a swap pays -/

theorem rated_of_rateBalances {p : CurvePool} {env : CurveEnv} {xs : List Nat}
    (h : rateBalances p.kind env.rates p.cAmts = .ok xs) : xs = p.rated env := by
  have hz : ∀ (k : CurveKind) (as rs xs : List Nat), k ≠ .stable → rateZip k as rs = .ok xs →
      xs = List.zipWith (fun c r => c * r / PRECISION) as rs := by
    intro k as
    induction as with
    | nil => intro rs xs _ h; cases h; simp
    | cons a as ih =>
      intro rs xs hk h
      cases rs with
      | nil => cases h; simp
      | cons r rs =>
        unfold rateZip at h
        unpack at h
        obtain ⟨x, hx, ys, hys, rfl⟩ := h
        have := mulRate_ok hx
        rw [if_neg hk] at this
        simp [this, ih rs ys hk hys]
  unfold rateBalances at h
  unfold CurvePool.rated
  split at h
  · rename_i hk; rw [hk]; cases h; rfl
  · rename_i hk
    have hk' : p.kind ≠ .stable := hk
    have := hz _ _ _ _ hk' h
    cases hkk : p.kind <;> simp_all

/-- The solver's result is above every amount that satisfies its equation, and one unit more is on
or above the real curve up to rounding. -/
theorem computeY_curve {w : Nat} {amp : R Nat} {x y i o : Nat} {xs : List Nat} (hio : i ≠ o)
    (hi : i < xs.length) (ho : o < xs.length) (h : computeY w amp x xs i o = .ok y) :
    ∃ A D, amp = .ok A ∧ computeD w amp xs = .ok D ∧
      A * xs.length ^ xs.length ≠ 0 ∧ ∀ M, D ≤ M → (∀ b ∈ othersOf i o xs 0, b ≤ M) →
        OnOrAboveCurve A D ((xs.set i x).set o (y + 1))
          (D * ((xs.length - 1) * (x * M ^ (xs.length - 2)))) := by
  obtain ⟨A, D, b, c, hA, hD, hx, hann, hb, hmax, hcur⟩ := computeY_ok h
  refine ⟨A, D, hA, hD, hann, ?_⟩
  intro M hM hMx
  obtain ⟨hs, hp, hl⟩ := othersOf_two (a := x) (b := y + 1) hio hi ho
  have hsl := curveSlack_le (D := D) (M := M) (x := x) hM (os := othersOf i o xs 0) (m := x)
    (e := x) (j := 0) hMx (by simp) (by simp)
  have hno : ¬ (y + 1) * (y + 1) + b * (y + 1) ≤ c + D * (y + 1) := by
    intro hc; have := hmax _ hc; omega
  unfold OnOrAboveCurve
  simp only [List.length_set]
  rw [hs, hp]
  generalize hos : othersOf i o xs 0 = os at *
  have hlen : xs.length = os.length + 2 := by omega
  generalize hn : xs.length = n at *
  subst hlen
  simp only [Nat.add_sub_cancel, show os.length + 2 - 1 = os.length + 1 by omega]
  generalize hN : (os.length + 2) ^ (os.length + 2) = nn at *
  generalize hE : curveSlack D x x os = E at *
  simp only [Nat.add_zero] at hsl
  generalize hE' : (os.length + 1) * (x * M ^ os.length) = E' at *
  generalize y + 1 = t at *
  generalize hP : x * os.prod = P at *
  rw [show 2 + os.length + 1 = os.length + 2 + 1 by omega] at hcur
  generalize D ^ (os.length + 2 + 1) = Dn at *
  generalize hann' : A * nn = ann at *
  have hbann : ann * b ≤ D + ann * (x + os.sum) := by
    rw [hb, Nat.mul_add]
    have := Nat.div_mul_le_self D ann
    rw [Nat.mul_comm] at this
    omega
  generalize os.sum = S at *
  have hD2 : D * E ≤ D * E' := Nat.mul_le_mul_left _ hsl
  have h1 : c + 1 + D * t ≤ t * t + b * t := by omega
  have h2 : (c + 1 + D * t) * (ann * nn * P) ≤ (t * t + b * t) * (ann * nn * P) :=
    Nat.mul_le_mul_right _ h1
  have h3 : ann * b * (t * nn * P) ≤ (D + ann * (x + S)) * (t * nn * P) :=
    Nat.mul_le_mul_right _ hbann
  have g1 : (c + 1 + D * t) * (ann * nn * P) =
      (c + 1) * (ann * nn) * P + ann * D * (nn * (t * P)) := by ring
  have g2 : (t * t + b * t) * (ann * nn * P) =
      ann * t * (nn * (t * P)) + ann * b * (t * nn * P) := by ring
  have g3 : (D + ann * (x + S)) * (t * nn * P) =
      D * (nn * (t * P)) + ann * (x + S) * (nn * (t * P)) := by ring
  have g4 : (ann * (x + t + S) + D) * (nn * (x * t * os.prod)) =
      ann * t * (nn * (t * P)) + (D * (nn * (t * P)) + ann * (x + S) * (nn * (t * P))) := by
    rw [← hP]; ring
  have g5 : nn * (x * t * os.prod) = nn * (t * P) := by rw [← hP]; ring
  rw [g4, g5]
  omega

/-- **C32**. In a successful swap of a stable, rated or degen pool: `D` is the pool's own invariant
before the trade, `inn` the input and `gross` the output before fees, in the units of the curve.
The pool pays nothing, or its balances after receiving `inn` and giving up all of `gross` are still
on or above the curve of `D`, up to the rounding of the chained divisions
(`(n-1) * x * M^(n-2)` relative to `D^n`). The trader gets `gross` minus the fee, converted back with
rounding against the trader, and the reserve covers it. -/
theorem C32_swap_keeps_curve {p q : CurvePool} {ti tout : AccountId} {a mo out : Nat}
    {fees : AdminFees} {env : CurveEnv} {v : Bool}
    (h : p.swap ti a tout mo fees env v = .ok (q, out)) :
    ∃ i o di do_ A D cin xi xo inn gross fee paid co,
      p.toks[i]? = some ti ∧ p.toks[o]? = some tout ∧ i ≠ o ∧
      p.decs[i]? = some di ∧ p.decs[o]? = some do_ ∧
      (p.inv env).amp = .ok A ∧ computeD p.kind.width (.ok A) (p.rated env) = .ok D ∧
      (p.rated env)[i]? = some xi ∧ (p.rated env)[o]? = some xo ∧ p.cAmts[o]? = some co ∧
      CoveredBy p.kind di a (cin + 1) ∧ cin * p.kind.tokPerC di ≤ a * p.kind.cPerTok di ∧
      inn = p.ratedAmount env i cin ∧ gross ≤ xo ∧
      fee = gross * p.totalFee / 10000 ∧
      p.ratedAmount env o paid ≤ gross - fee ∧ paid ≤ co ∧ CoveredBy p.kind do_ out paid ∧
      (gross = 0 ∨ ∀ M, D ≤ M → (∀ b ∈ p.rated env, b ≤ M) →
        OnOrAboveCurve A D (((p.rated env).set i (xi + inn)).set o (xo - gross))
          (D * (((p.rated env).length - 1) * ((xi + inn) * M ^ ((p.rated env).length - 2))))) := by
  obtain ⟨i, o, r, di, do_, x, hne, hti, hto, hio, -, hdi, hdo, hx, hr, hout, -, -, -⟩ := CurvePool.swap_ok h
  obtain ⟨ci, co, hci, hco, -, hcons⟩ := swapTo_conserves hr
  obtain ⟨rin, rout, inn, xs, xi, xo, y, fee, adm, sw, hrin, hrout, hinn, hxs, hxi, hxo, hy, hyx,
    hfee, hadm, hsw, -, -, -, -, d3, -, -⟩ := swapTo_ok hr
  have hxs' := rated_of_rateBalances (p := p) (env := env) hxs
  subst hxs'
  have hil : i < (p.rated env).length := (List.getElem?_eq_some_iff.1 hxi).1
  have hol : o < (p.rated env).length := (List.getElem?_eq_some_iff.1 hxo).1
  obtain ⟨A, D, hA, hD, -, hcurve⟩ := computeY_curve hio hil hol hy
  have hD' : computeD p.kind.width (.ok A) (p.rated env) = .ok D := by
    rw [← hA]; exact hD
  obtain ⟨hxe, -⟩ := amountToC_ok hx
  obtain ⟨hoe, -⟩ := cToAmount_ok hout
  refine ⟨i, o, di, do_, A, D, x, xi, xo, inn, xo - y - 1, fee, r.swapped, co, hti, hto, hio, hdi,
    hdo, hA, hD', hxi, hxo, hco, ?_, ?_, ?_, by omega, hfee, ?_, by omega, ?_, ?_⟩
  · unfold CoveredBy
    rw [hxe]
    have := Nat.div_add_mod (a * p.kind.cPerTok di) (p.kind.tokPerC di)
    have := Nat.mod_lt (a * p.kind.cPerTok di) (p.kind.tokPerC_pos di)
    nlinarith
  · rw [hxe]; exact Nat.div_mul_le_self _ _
  · have hm := mulRate_ok hinn
    unfold CurvePool.ratedAmount
    unfold Inv.rateAt at hrin
    simp only [CurvePool.inv] at hm hrin
    cases hk : p.kind <;> simp_all [expectE_ok, List.getD]
  · have hm := (divRate_ok d3).1
    have hsw' : sw = xo - y - 1 - fee := by omega
    rw [← hsw']
    unfold CurvePool.ratedAmount
    unfold Inv.rateAt at hrout
    simp only [CurvePool.inv] at hm hrout
    have aux : ∀ rr, sw * PRECISION / rr * rr / PRECISION ≤ sw := by
      intro rr
      apply Nat.div_le_of_le_mul
      rw [Nat.mul_comm PRECISION]
      exact Nat.div_mul_le_self _ _
    cases hk : p.kind <;> simp_all [expectE_ok, List.getD]
  · unfold CoveredBy
    rw [hoe]; exact Nat.div_mul_le_self _ _
  · rcases Nat.eq_zero_or_pos (xo - y - 1) with h0 | h0
    · exact Or.inl h0
    · right
      intro M hM hMx
      have := hcurve M hM (fun z hz => hMx z (mem_othersOf hz))
      rw [show xo - (xo - y - 1) = y + 1 by omega, Nat.add_comm xi inn]
      exact this

example : (exStable.swap exA (10 ^ 21) exB 1 exFees exEnv false).holds
    (fun (_, out) => out = 997497985) := by decide +kernel
example : (exRated.swap exB (10 ^ 27) exA 1 exFees exEnv false).holds
    (fun (_, out) => out = 1498629096729274908847985806) := by decide +kernel

/-! ### Reserves after a swap, C34 -/

/-- The reserves after a swap: the source grows by at most the converted input, the destination
falls by at least what is paid, the others do not change. -/
theorem curve_swap_reserves {p q : CurvePool} {ti tout : AccountId} {a mo out : Nat}
    {fees : AdminFees} {env : CurveEnv} {v : Bool}
    (h : p.swap ti a tout mo fees env v = .ok (q, out)) :
    ∃ i o di do_ x paid ci co ci' co' m, p.toks[i]? = some ti ∧ p.toks[o]? = some tout ∧ i ≠ o ∧
      p.decs[i]? = some di ∧ p.decs[o]? = some do_ ∧
      amountToC p.kind di a = .ok x ∧ cToAmount p.kind do_ paid = .ok out ∧ mo ≤ out ∧
      p.cAmts[i]? = some ci ∧ p.cAmts[o]? = some co ∧
      ci' ≤ ci + x ∧ co' + paid ≤ co ∧ ci' < 2 ^ 128 ∧ (co < 2 ^ 128 → co' < 2 ^ 128) ∧
      p.kind.minReserve ≤ co' ∧
      Minted { p with cAmts := (p.cAmts.set i ci').set o co' } q m v := by
  obtain ⟨i, o, r, di, do_, x, hne, hti, hto, hio, -, hdi, hdo, hx, hr, hout, hmo, hmin, hq⟩ :=
    CurvePool.swap_ok h
  obtain ⟨ci, co, hci, hco, hns, hcons⟩ := swapTo_conserves hr
  have hns' : r.newSource < 2 ^ 128 := by
    obtain ⟨_, _, inn, _, xi, _, _, _, _, _, -, -, -, -, -, -, -, -, -, -, -, -, hlt, d1, -⟩ :=
      swapTo_ok hr
    obtain ⟨e1, e2⟩ := divRate_ok d1
    by_cases hk : (p.inv env).kind = .stable
    · rw [if_pos hk] at e1; omega
    · exact e2 hk
  have hol : o < (p.cAmts.set i r.newSource).length := by
    simpa using (List.getElem?_eq_some_iff.1 hco).1
  rcases swapFee_ok hq with ⟨rfl, -⟩ | ⟨-, -, m, f, old, -, hold, hlt, hm⟩
  · exact ⟨i, o, di, do_, x, r.swapped, ci, co, r.newSource, r.newDest, 0, hti, hto, hio, hdi, hdo,
      hx, hout, hmo, hci, hco, hns, by omega, hns', by omega, hmin, Minted.refl _ _⟩
  · simp only [List.getElem?_set_self hol, Option.some.injEq] at hold
    subst hold
    simp only [List.set_set] at hm
    exact ⟨i, o, di, do_, x, r.swapped, ci, co, r.newSource, r.newDest + r.adminFee, m, hti, hto,
      hio, hdi, hdo, hx, hout, hmo, hci, hco, hns, by omega, hns', by omega, by omega, hm⟩

/-- **C34**, swaps: the reserve of the bought token stays at or above the minimum. -/
theorem C34_swap_min_reserve {p q : CurvePool} {ti tout : AccountId} {a mo out : Nat}
    {fees : AdminFees} {env : CurveEnv} {v : Bool}
    (h : p.swap ti a tout mo fees env v = .ok (q, out)) :
    ∃ (o c : Nat), p.toks[o]? = some tout ∧ q.cAmts[o]? = some c ∧ p.kind.minReserve ≤ c := by
  obtain ⟨i, o, _, _, _, _, _, _, ci', co', _, -, hto, hio, -, -, -, -, -, -, hco, -, -, -, -,
    hmin, hm⟩ := curve_swap_reserves h
  refine ⟨o, co', hto, ?_, hmin⟩
  rw [hm.frame]
  exact List.getElem?_set_self (by simpa using (List.getElem?_eq_some_iff.1 hco).1)

/-- **C34**, removals: after either kind of removal every reserve is at or above the minimum. -/
theorem C34_remove_shares_min_reserve {p q : CurvePool} {s : AccountId} {n : Nat}
    {mins paid : List Nat} {v : Bool} (h : p.removeByShares s n mins v = .ok (q, paid)) :
    ∀ c ∈ q.cAmts, p.kind.minReserve ≤ c := by
  obtain ⟨-, -, -, hl, -⟩ := removeByShares_ok h
  obtain ⟨hlen, -, -, hall⟩ := removeLoop_ok hl
  intro c hc
  obtain ⟨i, hi, rfl⟩ := List.getElem_of_mem hc
  obtain ⟨_, _, _, -, -, -, -, hn, hmin, -⟩ :=
    hall i _ (List.getElem?_eq_getElem (by omega))
  rw [List.getElem?_eq_getElem hi] at hn
  rw [Option.some.inj hn]
  exact hmin

theorem C34_remove_tokens_min_reserve {p q : CurvePool} {s : AccountId} {n mb : Nat}
    {am : List Nat} {fees : AdminFees} {env : CurveEnv} {v : Bool}
    (h : p.removeByTokens s am mb fees env v = .ok (q, n)) :
    ∀ c ∈ q.cAmts, p.kind.minReserve ≤ c := by
  obtain ⟨_, _, ns, -, -, -, -, hns, -, hf, -⟩ := removeByTokens_ok h
  obtain ⟨hlen, hall⟩ := subReserves_ok hns
  intro c hc
  rw [hf] at hc
  obtain ⟨i, hi, rfl⟩ := List.getElem_of_mem hc
  simp only at hi
  obtain ⟨_, -, -, hn, hmin⟩ := hall i _ (List.getElem?_eq_getElem (by omega))
  rw [List.getElem?_eq_getElem hi] at hn
  rw [Option.some.inj hn]
  exact hmin

example : (exStable.removeByShares exLP (10 ^ 22) [1, 1, 1] false).holds (fun (q, paid) =>
    paid = [3333333333333333333333, 3333333333, 3333333333333333333333000000] ∧
    q.cAmts = [96666666666666666666667, 96666666666666666666667, 96666666666666666666667]) := by
  decide +kernel
example : (exStable.removeByTokens exLP [10 ^ 20, 10 ^ 9, 10 ^ 24] (10 ^ 23) exFees exEnv false).holds
    (fun (q, burnt) => burnt = 1102140016007295438740 ∧
      q.cAmts = [99900000000000000000000, 99000000000000000000000, 99999000000000000000000]) := by
  decide +kernel

/-- The minimum is what the source says: 10^-3 of a token, in the pool's internal decimals. -/
example : ∀ k : CurveKind, k.minReserve = 10 ^ (k.target - 3) := by
  intro k; cases k <;> decide

/-! ### C35: fees of a swap -/

theorem lpForDeposit_ok {v : Inv} {dep old : List Nat} {S mint fee : Nat} {f : CurveFees}
    (h : v.lpForDeposit dep old S f = .ok (mint, fee)) :
    ∃ d0 d1 d2 new new', v.dWithRates old = .ok d0 ∧ depositBalances old dep = .ok new ∧
      v.dWithRates new = .ok d1 ∧ feeBalances v.kind.width old.length f d0 d1 old new = .ok new' ∧
      v.dWithRates new' = .ok d2 ∧ d0 < d1 ∧ d0 ≤ d2 ∧ d0 ≠ 0 ∧ mint = S * (d2 - d0) / d0 ∧
      mint + fee = S * (d1 - d0) / d0 := by
  unfold Inv.lpForDeposit sharesFor at h
  unpack at h
  obtain ⟨d0, h0, new, hn, d1, h1, hlt, new', hf, d2, h2, hle, -, hne, -, -, -, -, -, hfe, rfl, rfl⟩ := h
  exact ⟨d0, d1, d2, new, new', h0, hn, h1, hf, h2, hlt, hle, hne, rfl, by omega⟩

theorem lpForWithdraw_ok {v : Inv} {wd old : List Nat} {S burn fee : Nat} {f : CurveFees}
    (h : v.lpForWithdraw wd old S f = .ok (burn, fee)) :
    ∃ d0 d1 d2 new new', v.dWithRates old = .ok d0 ∧ withdrawBalances old wd = .ok new ∧
      v.dWithRates new = .ok d1 ∧ feeBalances v.kind.width old.length f d0 d1 old new = .ok new' ∧
      v.dWithRates new' = .ok d2 ∧ d1 < d0 ∧ d2 ≤ d0 ∧ d0 ≠ 0 ∧ burn = S * (d0 - d2) / d0 ∧
      burn = S * (d0 - d1) / d0 + fee := by
  unfold Inv.lpForWithdraw sharesFor at h
  unpack at h
  obtain ⟨d0, h0, new, hn, d1, h1, hlt, new', hf, d2, h2, hle, -, hne, -, -, -, -, -, hfe, rfl, rfl⟩ := h
  exact ⟨d0, d1, d2, new, new', h0, hn, h1, hf, h2, hlt, hle, hne, rfl, by omega⟩

theorem depositBalances_eq : ∀ {old dep new : List Nat}, depositBalances old dep = .ok new →
    dep.length = old.length →
    new.length = old.length ∧ ∀ (i c x : Nat), old[i]? = some c → dep[i]? = some x → new[i]? = some (c + x) := by
  intro old
  induction old with
  | nil =>
    intro dep new h hl
    have : dep = [] := by simpa using hl
    subst this; cases h; simp
  | cons c old ih =>
    intro dep new h hl
    cases dep with
    | nil => simp at hl
    | cons x dep =>
      unfold depositBalances at h
      unpack at h
      obtain ⟨-, r, hr, rfl⟩ := h
      obtain ⟨i1, i2⟩ := ih hr (by simpa using hl)
      refine ⟨by simp [i1], ?_⟩
      intro i c' x' h1 h2
      cases i with
      | zero => cases h1; cases h2; rfl
      | succ i => simpa using i2 i c' x' (by simpa using h1) (by simpa using h2)

theorem withdrawBalances_eq : ∀ {old dep new : List Nat}, withdrawBalances old dep = .ok new →
    dep.length = old.length →
    new.length = old.length ∧ ∀ (i c x : Nat), old[i]? = some c → dep[i]? = some x → new[i]? = some (c - x) := by
  intro old
  induction old with
  | nil =>
    intro dep new h hl
    have : dep = [] := by simpa using hl
    subst this; cases h; simp
  | cons c old ih =>
    intro dep new h hl
    cases dep with
    | nil => simp at hl
    | cons x dep =>
      unfold withdrawBalances at h
      unpack at h
      obtain ⟨-, r, hr, rfl⟩ := h
      obtain ⟨i1, i2⟩ := ih hr (by simpa using hl)
      refine ⟨by simp [i1], ?_⟩
      intro i c' x' h1 h2
      cases i with
      | zero => cases h1; cases h2; rfl
      | succ i => simpa using i2 i c' x' (by simpa using h1) (by simpa using h2)

/-- **C35**. In a successful swap the gross output splits exactly into the trader's part and the fee;
the fee is the configured rate rounded down; the protocol's part is its share of the fee rounded
down and at most the fee; in a stable pool the reserve of the bought token falls by exactly what the
trader is paid (so the fee stays in the pool, in other pools it falls by at least that much after
rounding). The shares minted for the protocol's part are worth at most that part: the pool's own
invariant per share is not lower after the mint than before it. -/
theorem C35_swap_fee_split {p q : CurvePool} {ti tout : AccountId} {a mo out : Nat}
    {fees : AdminFees} {env : CurveEnv} {v : Bool} (hb : fees.adminFeeBps ≤ 10000)
    (h : p.swap ti a tout mo fees env v = .ok (q, out)) :
    ∃ o gross fee adm sw paid co co',
      p.toks[o]? = some tout ∧ sw + fee = gross ∧ fee = gross * p.totalFee / 10000 ∧
      adm = fee * fees.adminFeeBps / 10000 ∧ adm ≤ fee ∧
      p.cAmts[o]? = some co ∧ q.cAmts[o]? = some co' ∧
      p.ratedAmount env o paid ≤ sw ∧ co' + paid ≤ co ∧
      (p.kind = .stable → paid = sw ∧ co' = co - sw) ∧
      (q.supply = p.supply ∨ ∃ d0 d1 cs,
        (p.inv env).dWithRates cs = .ok d0 ∧ (p.inv env).dWithRates q.cAmts = .ok d1 ∧
        (∀ i, i ≠ o → cs[i]? = q.cAmts[i]?) ∧
        (∃ c0, cs[o]? = some c0 ∧ c0 < co' ∧ (p.kind = .stable → co' - c0 = adm)) ∧
        d0 * q.supply ≤ d1 * p.supply ∧ p.supply ≤ q.supply) := by
  obtain ⟨i, o, r, di, do_, x, hne, hti, hto, hio, -, hdi, hdo, hx, hr, hout, hmo, hmin, hq⟩ :=
    CurvePool.swap_ok h
  obtain ⟨ci, co, hci, hco, hns, hcons⟩ := swapTo_conserves hr
  obtain ⟨rin, rout, inn, xs, xi, xo, y, fee, adm, sw, -, hrout, -, hxs, -, hxo, -, -,
    hfee, hadm, hsw, hsa, -, -, d2, d3, d4, -⟩ := swapTo_ok hr
  have hol : o < (p.cAmts.set i r.newSource).length := by
    simpa using (List.getElem?_eq_some_iff.1 hco).1
  have hpaid : p.ratedAmount env o r.swapped ≤ sw := by
    have hm := (divRate_ok d3).1
    unfold CurvePool.ratedAmount
    unfold Inv.rateAt at hrout
    simp only [CurvePool.inv] at hm hrout
    have aux : ∀ rr, sw * PRECISION / rr * rr / PRECISION ≤ sw := by
      intro rr
      apply Nat.div_le_of_le_mul
      rw [Nat.mul_comm PRECISION]
      exact Nat.div_mul_le_self _ _
    cases hk : p.kind <;> simp_all [expectE_ok, List.getD]
  have hadmle : adm ≤ fee := by
    rw [hadm]
    apply Nat.div_le_of_le_mul
    rw [Nat.mul_comm]
    exact Nat.mul_le_mul_right _ hb
  have hstab : p.kind = .stable → xo = co ∧ r.newDest = co - sw - adm ∧ r.swapped = sw ∧
      r.adminFee = adm := by
    intro hk
    have hk' : (p.inv env).kind = .stable := hk
    have e2 := (divRate_ok d2).1
    have e3 := (divRate_ok d3).1
    have e4 := (divRate_ok d4).1
    rw [if_pos hk'] at e2 e3 e4
    obtain ⟨co2, hco2, hc⟩ := rateBalances_at hxs hxo
    rcases hc with ⟨-, rfl⟩ | ⟨hk2, -⟩
    · rw [hco] at hco2; cases hco2; exact ⟨rfl, e2, e3, e4⟩
    · exact absurd hk' hk2
  rcases swapFee_ok hq with ⟨rfl, hz⟩ | ⟨ha0, -, m, f, old, hlp, hold, hlt, hm⟩
  · refine ⟨o, xo - y - 1, fee, adm, sw, r.swapped, co, r.newDest, hto, by omega, hfee, hadm, hadmle,
      hco, ?_, hpaid, by omega, ?_, Or.inl rfl⟩
    · exact List.getElem?_set_self hol
    · intro hk
      obtain ⟨h1, h2, h3, h4⟩ := hstab hk
      refine ⟨h3, ?_⟩
      rcases hz with hz | hz
      · rw [hz] at hadm; simp at hadm; omega
      · omega
  · simp only [List.getElem?_set_self hol, Option.some.injEq] at hold
    subst hold
    simp only [List.set_set] at hm hlp
    have hqo : q.cAmts = (p.cAmts.set i r.newSource).set o (r.newDest + r.adminFee) := by
      rw [hm.frame]
    refine ⟨o, xo - y - 1, fee, adm, sw, r.swapped, co, r.newDest + r.adminFee, hto, by omega, hfee,
      hadm, hadmle, hco, ?_, hpaid, by omega, ?_, Or.inr ?_⟩
    · rw [hqo]; exact List.getElem?_set_self hol
    · intro hk
      obtain ⟨h1, h2, h3, h4⟩ := hstab hk
      exact ⟨h3, by omega⟩
    · obtain ⟨d0, d1, d2, new, new', g0, gn, g1, gf, g2, glt, gle, gne, gm, gmf⟩ := lpForDeposit_ok hlp
      have hnew : new = q.cAmts := by
        obtain ⟨n1, n2⟩ := depositBalances_eq gn (by simp)
        apply List.ext_getElem?
        intro j
        rw [hqo]
        rcases Nat.lt_or_ge j p.cAmts.length with hj | hj
        · by_cases hjo : j = o
          · subst hjo
            rw [List.getElem?_set_self hol,
              n2 j r.newDest r.adminFee (List.getElem?_set_self hol)
                (List.getElem?_set_self (by simpa using hol))]
          · rw [List.getElem?_set_ne (Ne.symm hjo)]
            have e1 : ((p.cAmts.set i r.newSource).set o r.newDest)[j]? =
                (p.cAmts.set i r.newSource)[j]? := List.getElem?_set_ne (Ne.symm hjo)
            have hj' : j < (p.cAmts.set i r.newSource).length := by simpa using hj
            rw [List.getElem?_eq_getElem hj'] at e1 ⊢
            have := n2 j _ 0 e1 (by
              rw [List.getElem?_set_ne (Ne.symm hjo)]
              simp [hj])
            simpa using this
        · rw [List.getElem?_eq_none (by simp at n1 ⊢; omega), List.getElem?_eq_none (by simp; omega)]
      subst hnew
      refine ⟨d0, d1, _, g0, g1, ?_, ⟨r.newDest, List.getElem?_set_self hol, by omega, ?_⟩, ?_, ?_⟩
      · intro j hj
        rw [hqo, List.getElem?_set_ne (Ne.symm hj), List.getElem?_set_ne (Ne.symm hj)]
      · intro hk
        obtain ⟨h1, h2, h3, h4⟩ := hstab hk
        omega
      · rw [hm.supply]
        simp only
        have hle : m ≤ p.supply * (d1 - d0) / d0 := by
          have : m + f = p.supply * (d1 - d0) / d0 := gmf
          omega
        have h1 : m * d0 ≤ p.supply * (d1 - d0) := by
          calc m * d0 ≤ p.supply * (d1 - d0) / d0 * d0 := Nat.mul_le_mul_right _ hle
            _ ≤ _ := Nat.div_mul_le_self _ _
        obtain ⟨e, rfl⟩ := Nat.exists_eq_add_of_le glt.le
        rw [Nat.add_sub_cancel_left] at h1
        nlinarith
      · rw [hm.supply]; simp

example : exFees.adminFeeBps ≤ 10000 ∧ (exStable.swap exA (10 ^ 21) exB 1 exFees exEnv false).holds
    (fun (q, _) => q.cAmts[1]? = some 99002502014941838679824 ∧
      q.supply = 300000499996671976706667) := by decide +kernel

end Verif
