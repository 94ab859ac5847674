import Verif.Net.Torrc

/-!
# C117: the bridges Tor is told to use

After any sequence of calls of `update_tor_config` the configuration of Tor is the one the calls ask for, if nobody else writes it and the
bridges are what they are said to be.
-/
namespace Verif.Props
open Verif Verif.Codec Verif.Torrc

/-- What calls of `update_tor_config` bring about. -/
inductive TorMode
  | off
  | snowflake
  | obfs4 (bridges : List Bytes)

/-- A call with these bridges. -/
def TorMode.next (m : TorMode) (bs : List Bytes) (snow : Bool) : TorMode :=
  if snow then (if bs = [] then .snowflake else m)
  else if bs = [] then .off
  else match m with
    | .obfs4 old => .obfs4 (old ++ bs)
    | _ => .obfs4 bs

/-- The bridges in use. -/
def TorMode.bridges : TorMode → List Bytes
  | .off => []
  | .snowflake => [snowBridge]
  | .obfs4 bs => bs

/-- Their type. -/
def TorMode.type : TorMode → Bytes
  | .off => []
  | .snowflake => str "snowflake"
  | .obfs4 _ => str "obfs4"

/-- The answer to a call that leads to a mode. -/
def TorMode.answer (m : TorMode) (bs : List Bytes) (snow : Bool) : TorReply :=
  if snow = true ∧ bs ≠ [] then .invalid else .done (m.next bs snow).bridges (m.next bs snow).type

/-- A directory with an ordinary name: its name has no line feed, and the lines that name it read as what they are. -/
structure OrdinaryDir (dir : Bytes) : Prop where
  line : 10 ∉ dir
  snow_bridge : has (str "Bridge") (snowLine dir) = false
  obfs_bridge : has (str "Bridge") (obfsLine dir) = false
  snow_obfs : has (str "ClientTransportPlugin obfs4 exec") (snowLine dir) = false
  obfs_snow : has (str "ClientTransportPlugin snowflake exec") (obfsLine dir) = false

/-- A bridge for obfs4 on one line that does not name a plugin. -/
structure OrdinaryBridge (b : Bytes) : Prop where
  obfs : (str "obfs4").isPrefixOf b = true
  line : 10 ∉ b
  plugin : has (str "ClientTransportPlugin") (bridgeLine b) = false

/-- What the file holds in each mode.  Without bridges it is any file that says nothing about them. -/
def TorMode.Holds (dir : Bytes) : TorMode → Bytes → Prop
  | .off, f => ∀ l ∈ getlines f, has useLine l = false ∧ has (str "ClientTransportPlugin") l = false ∧ (str "Bridge").isPrefixOf l = false
  | .snowflake, f => f = unlines [useLine, snowLine dir, bridgeLine snowBridge]
  | .obfs4 bs, f => bs ≠ [] ∧ (∀ b ∈ bs, OrdinaryBridge b) ∧ f = unlines (useLine :: obfsLine dir :: bs.map bridgeLine)

/-! ## Lines -/

/-- The lines of the file are its text, each with its line feed, one of which is added if the last line has none; no line has one in it. -/
theorem torrc_lines (f : Bytes) : (getlines f).flatMap (· ++ [10]) = (if f = [] ∨ f.getLast? = some 10 then f else f ++ [10]) ∧
    ∀ l ∈ getlines f, 10 ∉ l := by
  induction f with
  | nil => simp [getlines]
  | cons c f ih =>
    obtain ⟨i1, i2⟩ := ih
    unfold getlines
    by_cases hc : c = 10
    · subst hc
      rw [if_pos rfl, List.flatMap_cons, i1]
      refine ⟨?_, by simpa using i2⟩
      cases f with
      | nil => simp
      | cons d f => simp only [List.getLast?_cons_cons, reduceCtorEq, false_or]; split <;> simp
    · rw [if_neg hc]
      cases hg : getlines f with
      | nil =>
        have : f = [] := by
          rw [hg] at i1
          simp only [List.flatMap_nil] at i1
          split at i1
          · exact i1.symm
          · simp at i1
        subst this
        simp [hc, Ne.symm hc]
      | cons l ls =>
        rw [hg] at i1 i2
        simp only [List.flatMap_cons, List.cons_append] at i1 ⊢
        rw [i1]
        cases f with
        | nil => simp [getlines] at hg
        | cons d f =>
          refine ⟨?_, ?_⟩
          · simp only [List.getLast?_cons_cons, reduceCtorEq, false_or]; split <;> simp
          · intro x hx
            rcases List.mem_cons.mp hx with rfl | hx
            · have := i2 l (by simp)
              simp [this, Ne.symm hc]
            · exact i2 x (by simp [hx])

private theorem getlines_line : ∀ {l t : Bytes}, 10 ∉ l → getlines (l ++ 10 :: t) = l :: getlines t
  | [], t, _ => by simp [getlines]
  | c :: l, t, h => by
    have hc : c ≠ 10 := fun e => h (by simp [e])
    have hl : 10 ∉ l := fun e => h (List.mem_cons_of_mem _ e)
    simp only [List.cons_append, getlines, hc, if_false, getlines_line hl]

private theorem getlines_unlines_append : ∀ {ls : List Bytes} {t : Bytes}, (∀ l ∈ ls, 10 ∉ l) → getlines (unlines ls ++ t) = ls ++ getlines t
  | [], t, _ => rfl
  | l :: ls, t, h => by
    have : unlines (l :: ls) ++ t = l ++ 10 :: (unlines ls ++ t) := by simp [unlines]
    rw [this, getlines_line (h l List.mem_cons_self), getlines_unlines_append fun x hx => h x (List.mem_cons_of_mem _ hx)]
    rfl

private theorem getlines_unlines {ls : List Bytes} (h : ∀ l ∈ ls, 10 ∉ l) : getlines (unlines ls) = ls := by
  have := getlines_unlines_append (t := []) h
  simpa [getlines] using this

private theorem unlines_append (a b : List Bytes) : unlines (a ++ b) = unlines a ++ unlines b := by simp [unlines]

private theorem has_prefix {n : Bytes} : ∀ {s : Bytes}, n.isPrefixOf s = true → has n s = true
  | [], h => by
    cases n with
    | nil => rfl
    | cons a n => simp at h
  | c :: s, h => by simp [has, h]

private theorem has_append_left (n s : Bytes) : has n (n ++ s) = true := has_prefix (by simp)

/-- A line that names the longer string names the shorter. -/
private theorem has_mono {n m : Bytes} (hnm : n.isPrefixOf m = true) : ∀ {s : Bytes}, has m s = true → has n s = true
  | [], h => by
    simp only [has, beq_iff_eq] at h
    subst h
    cases n with
    | nil => rfl
    | cons a n => simp at hnm
  | c :: s, h => by
    simp only [has, Bool.or_eq_true] at h ⊢
    rcases h with h | h
    · left
      rw [List.isPrefixOf_iff_prefix] at h hnm ⊢
      exact hnm.trans h
    · right; exact has_mono hnm h

private theorem has_mono_false {n m s : Bytes} (hnm : n.isPrefixOf m = true) (h : has n s = false) : has m s = false := by
  cases hm : has m s with
  | false => rfl
  | true => rw [has_mono hnm hm] at h; cases h

private theorem snow_nonl {dir : Bytes} (h : 10 ∉ dir) : 10 ∉ snowLine dir := by
  unfold snowLine
  simp only [List.mem_append, not_or]
  exact ⟨by decide +kernel, h, by decide +kernel⟩

private theorem obfs_nonl {dir : Bytes} (h : 10 ∉ dir) : 10 ∉ obfsLine dir := by
  unfold obfsLine
  simp only [List.mem_append, not_or]
  exact ⟨by decide +kernel, h, by decide +kernel⟩

private theorem bridge_nonl {b : Bytes} (h : 10 ∉ b) : 10 ∉ bridgeLine b := by
  unfold bridgeLine
  simp only [List.mem_append, not_or]
  exact ⟨by decide +kernel, h⟩

private theorem obfsLine_prefix (dir : Bytes) (n : Bytes) (h : n.isPrefixOf (str "ClientTransportPlugin obfs4 exec ") = true) :
    has n (obfsLine dir) = true :=
  has_mono h (has_append_left _ _)

private theorem snowLine_prefix (dir : Bytes) (n : Bytes) (h : n.isPrefixOf (str "ClientTransportPlugin snowflake exec ") = true) :
    has n (snowLine dir) = true :=
  has_mono h (has_append_left _ _)

private theorem bridge_has_obfs {b : Bytes} (h : OrdinaryBridge b) : has (str "Bridge obfs4") (bridgeLine b) = true := by
  have h1 := h.obfs
  rw [List.isPrefixOf_iff_prefix] at h1
  obtain ⟨t, rfl⟩ := h1
  have : bridgeLine (str "obfs4" ++ t) = str "Bridge obfs4" ++ t := by
    unfold bridgeLine
    rw [← List.append_assoc]
    congr 1
  rw [this]; exact has_append_left _ _

private theorem not_bridge {n : Bytes} {s : Bytes} (t : Bytes) (h : n = 67 :: s) : (str "Bridge").isPrefixOf (n ++ t) = false := by
  have hs : str "Bridge" = 66 :: str "ridge" := by decide +kernel
  rw [hs, h]
  rfl

private theorem obfs_not_bridge (dir : Bytes) : (str "Bridge").isPrefixOf (obfsLine dir) = false :=
  not_bridge (s := str "lientTransportPlugin obfs4 exec ") _ (by decide +kernel)

private theorem snow_not_bridge (dir : Bytes) : (str "Bridge").isPrefixOf (snowLine dir) = false :=
  not_bridge (s := str "lientTransportPlugin snowflake exec ") _ (by decide +kernel)

private theorem bridge_prefix (b : Bytes) : (str "Bridge").isPrefixOf (bridgeLine b) = true := by
  rw [List.isPrefixOf_iff_prefix]
  exact ⟨32 :: b, rfl⟩

private theorem bridge_length (b : Bytes) : ¬ (bridgeLine b).length < 7 := by
  have : (str "Bridge ").length = 7 := by decide +kernel
  simp only [bridgeLine, List.length_append, this]; omega

private theorem bridge_drop (b : Bytes) : (bridgeLine b).drop 7 = b := rfl

private theorem bridgesOf_map : ∀ bs : List Bytes, bridgesOf (bs.map bridgeLine) = .ok bs
  | [] => rfl
  | b :: bs => by
    simp only [List.map_cons, bridgesOf, bridge_prefix, if_true, bridge_length, if_false, bridgesOf_map bs, Res.ok_bind, Res.pure_eq, bridge_drop]

private theorem bridgesOf_skip {l : Bytes} {ls : List Bytes} (h : (str "Bridge").isPrefixOf l = false) : bridgesOf (l :: ls) = bridgesOf ls := by
  simp only [bridgesOf, h, Bool.false_eq_true, if_false]

private theorem bridgesOf_none : ∀ {ls : List Bytes}, (∀ l ∈ ls, (str "Bridge").isPrefixOf l = false) → bridgesOf ls = .ok []
  | [], _ => rfl
  | l :: ls, h => by
    rw [bridgesOf_skip (h l List.mem_cons_self)]
    exact bridgesOf_none fun x hx => h x (List.mem_cons_of_mem _ hx)

/-! ## What the file says in each mode -/

private def TorMode.noSnow : TorMode → TorMode
  | .snowflake => .off
  | x => x

private def TorMode.noObfs : TorMode → TorMode
  | .obfs4 _ => .off
  | x => x

section
variable {dir : Bytes} (hd : OrdinaryDir dir)
include hd

private theorem lines_snow : getlines (unlines [useLine, snowLine dir, bridgeLine snowBridge]) = [useLine, snowLine dir, bridgeLine snowBridge] := by
  apply getlines_unlines
  intro l hl
  simp only [List.mem_cons, List.not_mem_nil, or_false] at hl
  rcases hl with rfl | rfl | rfl
  · decide +kernel
  · exact snow_nonl hd.line
  · decide +kernel

private theorem lines_obfs {bs : List Bytes} (hb : ∀ b ∈ bs, OrdinaryBridge b) :
    getlines (unlines (useLine :: obfsLine dir :: bs.map bridgeLine)) = useLine :: obfsLine dir :: bs.map bridgeLine := by
  apply getlines_unlines
  intro l hl
  simp only [List.mem_cons, List.mem_map] at hl
  rcases hl with rfl | rfl | ⟨b, hb', rfl⟩
  · decide +kernel
  · exact obfs_nonl hd.line
  · exact bridge_nonl (hb b hb').line

private theorem facts {m : TorMode} {f : Bytes} (h : m.Holds dir f) :
    listBridges f = .ok m.bridges ∧ bridgesOn f = (match m with | .off => false | _ => true) ∧
      snowOn f = (match m with | .snowflake => true | _ => false) ∧ obfsOn f = (match m with | .obfs4 _ => true | _ => false) := by
  cases m with
  | off =>
    simp only [TorMode.Holds] at h
    refine ⟨bridgesOf_none fun l hl => (h l hl).2.2, ?_, ?_, ?_⟩
    · simp only [bridgesOn, List.any_eq_false]
      intro l hl; simp [(h l hl).1]
    · simp only [snowOn, List.any_eq_false]
      intro l hl; simp [has_mono_false (m := str "ClientTransportPlugin snowflake exec") (by decide +kernel) (h l hl).2.1]
    · simp only [obfsOn, List.any_eq_false]
      intro l hl; simp [has_mono_false (m := str "ClientTransportPlugin obfs4 exec") (by decide +kernel) (h l hl).2.1]
  | snowflake =>
    simp only [TorMode.Holds] at h
    subst h
    have hl := lines_snow hd
    refine ⟨?_, ?_, ?_, ?_⟩
    · rw [listBridges, hl, bridgesOf_skip (by decide +kernel), bridgesOf_skip (snow_not_bridge dir)]
      exact bridgesOf_map [snowBridge]
    · simp only [bridgesOn, hl, List.any_cons]
      simp [show has useLine useLine = true from by decide +kernel]
    · simp only [snowOn, hl, List.any_cons]
      simp [snowLine_prefix dir (str "ClientTransportPlugin snowflake exec") (by decide +kernel)]
    · simp only [obfsOn, hl, List.any_cons, hd.snow_obfs, List.any_nil, Bool.or_false, Bool.false_or]
      decide +kernel
  | obfs4 bs =>
    simp only [TorMode.Holds] at h
    obtain ⟨-, hb, rfl⟩ := h
    have hl := lines_obfs hd hb
    refine ⟨?_, ?_, ?_, ?_⟩
    · rw [listBridges, hl, bridgesOf_skip (by decide +kernel), bridgesOf_skip (obfs_not_bridge dir)]
      exact bridgesOf_map bs
    · simp only [bridgesOn, hl, List.any_cons]
      simp [show has useLine useLine = true from by decide +kernel]
    · have : (bs.map bridgeLine).any (has (str "ClientTransportPlugin snowflake exec")) = false := by
        simp only [List.any_eq_false, List.mem_map]
        rintro l ⟨b, hb', rfl⟩
        simp [has_mono_false (m := str "ClientTransportPlugin snowflake exec") (by decide +kernel) (hb b hb').plugin]
      simp only [snowOn, hl, List.any_cons, hd.obfs_snow, this, Bool.or_false]
      decide +kernel
    · simp only [obfsOn, hl, List.any_cons]
      simp [obfsLine_prefix dir (str "ClientTransportPlugin obfs4 exec") (by decide +kernel)]

private theorem use_line_has : has useLine useLine = true := by decide +kernel

/-- In no mode are there lines that name both `ClientTransportPlugin` and `Bridge`. -/
private theorem keeps_none {m : TorMode} {f : Bytes} (h : m.Holds dir f) :
    ((getlines f).filter fun l => !(has useLine l || !has (str "ClientTransportPlugin") l || !has (str "Bridge") l)) = [] := by
  rw [List.filter_eq_nil_iff]
  intro l hl
  cases m with
  | off =>
    simp only [TorMode.Holds] at h
    simp [(h l hl).2.1]
  | snowflake =>
    simp only [TorMode.Holds] at h
    subst h
    rw [lines_snow hd] at hl
    simp only [List.mem_cons, List.not_mem_nil, or_false] at hl
    rcases hl with rfl | rfl | rfl
    · simp [use_line_has hd]
    · simp [hd.snow_bridge]
    · decide +kernel
  | obfs4 bs =>
    simp only [TorMode.Holds] at h
    obtain ⟨-, hb, rfl⟩ := h
    rw [lines_obfs hd hb] at hl
    simp only [List.mem_cons, List.mem_map] at hl
    rcases hl with rfl | rfl | ⟨b, hb', rfl⟩
    · simp [use_line_has hd]
    · simp [hd.obfs_bridge]
    · simp [(hb b hb').plugin]

private theorem addHeaders_eq {m : TorMode} {f : Bytes} (h : m.Holds dir f) (snow : Bool) :
    addHeaders ⟨dir, true⟩ snow f =
      .ok (unlines (useLine :: (if snow then [snowLine dir, bridgeLine snowBridge] else [obfsLine dir]))) := by
  simp only [addHeaders, Place.replace, if_true, keeps_none hd h, List.append_nil]

/-- Adding bridges to a file that has some, or none. -/
private theorem addBridges_eq : ∀ {bs : List Bytes} {m : TorMode} {f : Bytes}, bs ≠ [] → (∀ b ∈ bs, OrdinaryBridge b) → m.Holds dir f →
    m.type ≠ str "snowflake" → ∃ f', addBridges ⟨dir, true⟩ (bs.map .str) f = .ok (true, f') ∧ (m.next bs false).Holds dir f'
  | [], m, f, h, _, _, _ => absurd rfl h
  | b :: bs, m, f, _, hb, hm, ht => by
    have ho := hb b List.mem_cons_self
    have hne : b ≠ [] := by
      rintro rfl
      have := ho.obfs
      revert this; decide +kernel
    -- after the first one
    have one : ∃ f1, addBridge ⟨dir, true⟩ b f = .ok f1 ∧ (m.next [b] false).Holds dir f1 := by
      unfold addBridge
      simp only [hne, if_false]
      cases m with
      | off =>
        have h1 := (facts hd hm).2.2.2
        simp only at h1
        simp only [h1, Bool.false_eq_true, if_false, addHeaders_eq hd hm, Res.ok_bind, Res.pure_eq]
        refine ⟨_, rfl, ?_⟩
        simp only [TorMode.next, Bool.false_eq_true, if_false, List.cons_ne_nil, TorMode.Holds]
        refine ⟨by simp, by simpa using ho, ?_⟩
        simp [unlines]
      | snowflake => exact absurd rfl ht
      | obfs4 old =>
        have h1 := (facts hd hm).2.2.2
        simp only at h1
        simp only [h1, if_true, Res.ok_bind, Res.pure_eq]
        refine ⟨_, rfl, ?_⟩
        simp only [TorMode.Holds] at hm
        obtain ⟨h2, h3, rfl⟩ := hm
        simp only [TorMode.next, Bool.false_eq_true, if_false, List.cons_ne_nil, TorMode.Holds]
        refine ⟨by simp, fun x hx => ?_, by simp [unlines]⟩
        rcases List.mem_append.mp hx with hx | hx
        · exact h3 x hx
        · rw [List.mem_singleton.mp hx]; exact ho
    obtain ⟨f1, h1, h2⟩ := one
    simp only [List.map_cons, addBridges, Json.asString, h1, Res.ok_bind]
    cases bs with
    | nil => exact ⟨f1, rfl, h2⟩
    | cons c cs =>
      have ht' : (m.next [b] false).type ≠ str "snowflake" := by
        have : (m.next [b] false).type = str "obfs4" := by
          cases m <;> simp [TorMode.next, TorMode.type]
        rw [this]; decide +kernel
      obtain ⟨f', h3, h4⟩ := addBridges_eq (bs := c :: cs) (by simp) (fun x hx => hb x (List.mem_cons_of_mem _ hx)) h2 ht'
      refine ⟨f', h3, ?_⟩
      have : (m.next [b] false).next (c :: cs) false = m.next (b :: c :: cs) false := by
        cases m <;> simp [TorMode.next]
      rw [← this]; exact h4

/-- Snowflake is taken out. -/
private theorem disableSnow_eq {m : TorMode} {f : Bytes} (h : m.Holds dir f) :
    ∃ (f' : Bytes) (m' : TorMode), disableSnow ⟨dir, true⟩ f = .ok f' ∧ m'.Holds dir f' ∧ m' = m.noSnow ∧
      (m.type ≠ str "snowflake" → f' = f) := by
  unfold disableSnow
  have h1 := (facts hd h).2.2.1
  cases m with
  | off => simp only at h1; simp only [h1, Bool.false_eq_true, if_false]; exact ⟨f, .off, rfl, h, rfl, fun _ => rfl⟩
  | obfs4 bs => simp only at h1; simp only [h1, Bool.false_eq_true, if_false]; exact ⟨f, .obfs4 bs, rfl, h, rfl, fun _ => rfl⟩
  | snowflake =>
    simp only at h1
    simp only [TorMode.Holds] at h
    subst h
    simp only [h1, if_true, removeSnow, Place.replace, lines_snow hd]
    have : ([useLine, snowLine dir, bridgeLine snowBridge].filter fun l =>
        !(has useLine l || has (str "ClientTransportPlugin snowflake") l || has (str "Bridge snowflake") l)) = [] := by
      rw [List.filter_eq_nil_iff]
      intro l hl
      simp only [List.mem_cons, List.not_mem_nil, or_false] at hl
      rcases hl with rfl | rfl | rfl
      · simp [use_line_has hd]
      · simp [snowLine_prefix dir (str "ClientTransportPlugin snowflake") (by decide +kernel)]
      · decide +kernel
    rw [this]
    exact ⟨[], .off, rfl, by simp [TorMode.Holds, getlines], rfl, fun h => absurd rfl h⟩

/-- obfs4 is taken out. -/
private theorem disableObfs_eq {m : TorMode} {f : Bytes} (h : m.Holds dir f) :
    ∃ (f' : Bytes) (m' : TorMode), disableObfs ⟨dir, true⟩ f = .ok f' ∧ m'.Holds dir f' ∧ m' = m.noObfs ∧
      (m.type ≠ str "obfs4" → f' = f) := by
  unfold disableObfs
  have h1 := (facts hd h).2.2.2
  cases m with
  | off => simp only at h1; simp only [h1, Bool.false_eq_true, if_false]; exact ⟨f, .off, rfl, h, rfl, fun _ => rfl⟩
  | snowflake => simp only at h1; simp only [h1, Bool.false_eq_true, if_false]; exact ⟨f, .snowflake, rfl, h, rfl, fun _ => rfl⟩
  | obfs4 bs =>
    simp only at h1
    simp only [TorMode.Holds] at h
    obtain ⟨-, hb, rfl⟩ := h
    simp only [h1, if_true, removeObfs, Place.replace, lines_obfs hd hb]
    have : ((useLine :: obfsLine dir :: bs.map bridgeLine).filter fun l =>
        !(has useLine l || has (str "ClientTransportPlugin obfs4") l || has (str "Bridge obfs4") l)) = [] := by
      rw [List.filter_eq_nil_iff]
      intro l hl
      simp only [List.mem_cons, List.mem_map] at hl
      rcases hl with rfl | rfl | ⟨b, hb', rfl⟩
      · simp [use_line_has hd]
      · simp [obfsLine_prefix dir (str "ClientTransportPlugin obfs4") (by decide +kernel)]
      · simp [bridge_has_obfs (hb b hb')]
    rw [this]
    exact ⟨[], .off, rfl, by simp [TorMode.Holds, getlines], rfl, fun h => absurd rfl h⟩

private theorem reply_eq {m : TorMode} {f : Bytes} (h : m.Holds dir f) :
    (listBridges f >>= fun l => (pure (TorReply.done l (if bridgesOn f then if snowOn f then str "snowflake" else str "obfs4" else []), f) :
      Res (TorReply × Bytes))) = .ok (.done m.bridges m.type, f) := by
  obtain ⟨h1, h2, h3, -⟩ := facts hd h
  rw [h1, h2, h3]
  cases m <;> rfl

/-- **One call does what it is asked**: it is answered with the bridges in use from then on, and those are in the file.  A call that asks for
both kinds is refused and changes nothing; if there were no bridges and none are asked for, the file stays as it is. -/
theorem tor_call_partial {m : TorMode} {f : Bytes} {bs : List Bytes} {snow : Bool} (hb : ∀ b ∈ bs, OrdinaryBridge b) (h : m.Holds dir f) :
    ∃ f', handle ⟨dir, true⟩ (bs.map .str) snow f = .ok (m.answer bs snow, f') ∧ (m.next bs snow).Holds dir f' ∧
      (snow = true ∧ bs ≠ [] → f' = f) ∧ (snow = false → bs = [] → m.type = [] → f' = f) := by
  unfold handle
  by_cases hbs : bs = []
  · subst hbs
    simp only [List.map_nil, ne_eq, not_true_eq_false, and_false, if_false]
    cases snow with
    | true =>
      simp only [if_true]
      -- the file with snowflake
      have key : ∃ f1, enableSnow ⟨dir, true⟩ f = .ok f1 ∧ TorMode.snowflake.Holds dir f1 := by
        unfold enableSnow
        have h1 := (facts hd h).2.2.1
        cases m with
        | snowflake => simp only at h1; simp only [h1, if_true]; exact ⟨f, rfl, h⟩
        | off => simp only at h1; simp only [h1, Bool.false_eq_true, if_false, addHeaders_eq hd h]; exact ⟨_, rfl, rfl⟩
        | obfs4 old => simp only at h1; simp only [h1, Bool.false_eq_true, if_false, addHeaders_eq hd h]; exact ⟨_, rfl, rfl⟩
      obtain ⟨f1, h1, h2⟩ := key
      obtain ⟨f2, m2, h3, h4, h5, h6⟩ := disableObfs_eq hd h2
      simp only [TorMode.noObfs] at h5
      subst h5
      simp only [h1, h3, Res.ok_bind, if_true, reply_eq hd h4]
      exact ⟨f2, by simp [TorMode.answer, TorMode.next], by simpa [TorMode.next] using h4, by simp, by simp⟩
    | false =>
      simp only [Bool.false_eq_true, if_false]
      obtain ⟨f1, m1, h1, h2, h3, h4⟩ := disableSnow_eq hd h
      obtain ⟨f2, m2, h5, h6, h7, h8⟩ := disableObfs_eq hd h2
      have hm2 : m2 = .off := by rw [h7, h3]; cases m <;> rfl
      rw [hm2] at h6
      simp only [h1, h5, Res.ok_bind, if_true, reply_eq hd h6]
      refine ⟨f2, by simp [TorMode.answer, TorMode.next], by simpa [TorMode.next] using h6, by simp, fun _ _ ht => ?_⟩
      cases m with
      | off =>
        rw [h8 (by rw [h3]; decide +kernel), h4 (by decide +kernel)]
      | snowflake => exact absurd ht (by decide +kernel)
      | obfs4 _ => exact absurd ht (by simp only [TorMode.type]; decide +kernel)
  · have hbs' : bs.map Json.str ≠ [] := by simpa using hbs
    cases snow with
    | true =>
      simp only [hbs', ne_eq, not_false_eq_true, and_self, if_true]
      exact ⟨f, by simp [TorMode.answer, hbs], by simpa [TorMode.next, hbs] using h, fun _ => rfl, by simp⟩
    | false =>
      simp only [Bool.false_eq_true, false_and, if_false, hbs', ne_eq, not_false_eq_true, if_true]
      obtain ⟨f1, m1, h1, h2, h3, h4⟩ := disableSnow_eq hd h
      have ht1 : m1.type ≠ str "snowflake" := by
        rw [h3]; cases m <;> simp only [TorMode.noSnow, TorMode.type] <;> decide +kernel
      obtain ⟨f2, h5, h6⟩ := addBridges_eq hd hbs hb h2 ht1
      have hn : m1.next bs false = m.next bs false := by
        rw [h3]; cases m <;> simp [TorMode.next, TorMode.noSnow, hbs]
      rw [hn] at h6
      simp only [h1, h5, Res.ok_bind, if_true, reply_eq hd h6]
      exact ⟨f2, by simp [TorMode.answer], h6, by simp, fun _ h => absurd h hbs⟩

/-- The mode after calls. -/
def TorMode.after : List (List Bytes × Bool) → TorMode → TorMode
  | [], m => m
  | (bs, snow) :: cs, m => TorMode.after cs (m.next bs snow)

/-- **After any sequence of calls the file is the one they ask for**: it has `UseBridges`, the plugin and the bridges of the kind asked for
last and of no other, or none of them, and `get_tor_config` shows them. -/
theorem tor_calls_partial : ∀ {cs : List (List Bytes × Bool)} {m : TorMode} {f : Bytes} {r : TorReply},
    (∀ c ∈ cs, ∀ b ∈ c.1, OrdinaryBridge b) → m.Holds dir f →
    ∃ r' f', calls ⟨dir, true⟩ (cs.map fun c => (c.1.map .str, c.2)) (r, f) = .ok (r', f') ∧ (m.after cs).Holds dir f' ∧
      listBridges f' = .ok (m.after cs).bridges
  | [], m, f, r, _, h => ⟨r, f, rfl, h, (facts hd h).1⟩
  | (bs, snow) :: cs, m, f, r, hb, h => by
    obtain ⟨f1, h1, h2, -⟩ := tor_call_partial hd (hb (bs, snow) List.mem_cons_self) h (snow := snow)
    obtain ⟨r', f', h3, h4, h5⟩ := tor_calls_partial (cs := cs) (r := m.answer bs snow)
      (fun c hc => hb c (List.mem_cons_of_mem _ hc)) h2
    refine ⟨r', f', ?_, h4, h5⟩
    simp only [List.map_cons, calls, h1, Res.ok_bind]
    exact h3

end

/-! ## A wallet that lives in an ordinary place -/

/-- The data directory of Tor of a user `ann`. -/
def annDir : Bytes := str "/home/ann/.GrinPP/MAINNET/TOR/data"

/-- An ordinary configuration. -/
def plainTorrc : Bytes := unlines [str "# my settings", str "Log notice stdout", str "HTTPTunnelPort 0"]

/-- Two bridges. -/
def bridge1 : Bytes := str "obfs4 10.0.0.1:443 AB cert=x iat-mode=0"
def bridge2 : Bytes := str "obfs4 10.0.0.2:443 CD cert=y iat-mode=0"

set_option maxHeartbeats 2000000 in
private theorem ann_ordinary : OrdinaryDir annDir := by
  constructor <;> decide +kernel
private theorem bridge1_ordinary : OrdinaryBridge bridge1 := by constructor <;> decide +kernel
private theorem bridge2_ordinary : OrdinaryBridge bridge2 := by constructor <;> decide +kernel
private theorem plain_off : TorMode.off.Holds annDir plainTorrc := by
  show ∀ l ∈ getlines plainTorrc, _
  decide +kernel

/-- The hypotheses of `tor_call_partial` and `tor_calls_partial` are met: bridges, snowflake, another bridge. -/
example : ∃ r f, calls ⟨annDir, true⟩ [([.str bridge1], false), ([], true), ([.str bridge2], false)] (.failed, plainTorrc) = .ok (r, f) ∧
    listBridges f = .ok [bridge2] := by
  obtain ⟨r, f, h1, -, h3⟩ := tor_calls_partial ann_ordinary (cs := [([bridge1], false), ([], true), ([bridge2], false)]) (r := .failed)
    (by
      intro c hc b hb
      simp only [List.mem_cons, List.not_mem_nil, or_false] at hc
      rcases hc with rfl | rfl | rfl
      · rw [List.mem_singleton.mp hb]; exact bridge1_ordinary
      · cases hb
      · rw [List.mem_singleton.mp hb]; exact bridge2_ordinary) plain_off
  exact ⟨r, f, h1, h3⟩

/-! ## What goes wrong -/

/-- **The settings of the user are gone**: after bridges are asked for and given up again nothing is left of the configuration there was
before.  This holds for every configuration that says nothing about bridges. -/
theorem own_settings_lost_violated {dir f : Bytes} {bs : List Bytes} (hd : OrdinaryDir dir) (hbs : bs ≠ []) (hb : ∀ b ∈ bs, OrdinaryBridge b)
    (h : TorMode.off.Holds dir f) :
    ∃ r, calls ⟨dir, true⟩ [(bs.map .str, false), ([], false)] (.failed, f) = .ok (r, []) := by
  obtain ⟨f1, h1, h2, -⟩ := tor_call_partial hd (snow := false) hb h
  have hm : TorMode.off.next bs false = .obfs4 bs := by simp [TorMode.next, hbs]
  rw [hm] at h2
  refine ⟨.done [] [], ?_⟩
  simp only [calls, h1, Res.ok_bind]
  have hs : snowOn f1 = false := (facts hd h2).2.2.1
  have ho : obfsOn f1 = true := (facts hd h2).2.2.2
  have hr : removeObfs ⟨dir, true⟩ f1 = .ok [] := by
    simp only [TorMode.Holds] at h2
    obtain ⟨-, hb, rfl⟩ := h2
    simp only [removeObfs, Place.replace, if_true, lines_obfs hd hb]
    have : ((useLine :: obfsLine dir :: bs.map bridgeLine).filter fun l =>
        !(has useLine l || has (str "ClientTransportPlugin obfs4") l || has (str "Bridge obfs4") l)) = [] := by
      rw [List.filter_eq_nil_iff]
      intro l hl
      simp only [List.mem_cons, List.mem_map] at hl
      rcases hl with rfl | rfl | ⟨b, hb', rfl⟩
      · simp [use_line_has hd]
      · simp [obfsLine_prefix dir (str "ClientTransportPlugin obfs4") (by decide +kernel)]
      · simp [bridge_has_obfs (hb b hb')]
    rw [this]; rfl
  have : handle ⟨dir, true⟩ [] false f1 = .ok (.done [] [], []) := by
    simp only [handle, Bool.false_eq_true, false_and, if_false, disableSnow, hs, Res.ok_bind, ne_eq, not_true_eq_false, disableObfs, ho, if_true, hr]
    rfl
  rw [this]; rfl

/-- **A list given twice is used twice**: a call with the bridges that are in use adds them again. -/
theorem bridges_pile_up_violated {dir f : Bytes} {bs : List Bytes} (hd : OrdinaryDir dir) (hbs : bs ≠ []) (hb : ∀ b ∈ bs, OrdinaryBridge b)
    (h : (TorMode.obfs4 bs).Holds dir f) :
    ∃ f', handle ⟨dir, true⟩ (bs.map .str) false f = .ok (.done (bs ++ bs) (str "obfs4"), f') ∧ listBridges f' = .ok (bs ++ bs) := by
  obtain ⟨f', h1, h2, -⟩ := tor_call_partial hd (snow := false) hb h
  have hm : (TorMode.obfs4 bs).next bs false = .obfs4 (bs ++ bs) := by simp [TorMode.next, hbs]
  rw [hm] at h2
  refine ⟨f', ?_, (facts hd h2).1⟩
  rw [h1]
  simp only [TorMode.answer, Bool.false_eq_true, false_and, if_false, hm]
  rfl

/-- **A bridge left out stays in use**: a call that names another bridge only. -/
theorem left_out_stays_violated {dir f : Bytes} {b c : Bytes} (hd : OrdinaryDir dir) (hb : OrdinaryBridge b)
    (h : (TorMode.obfs4 [c]).Holds dir f) :
    ∃ f', handle ⟨dir, true⟩ [.str b] false f = .ok (.done [c, b] (str "obfs4"), f') := by
  obtain ⟨f', h1, -⟩ := tor_call_partial hd (snow := false) (bs := [b]) (by simpa using hb) h
  exact ⟨f', h1⟩

example : ∃ f, (TorMode.obfs4 [bridge1]).Holds annDir f :=
  ⟨_, by simp, by simpa using bridge1_ordinary, rfl⟩

/-- **What is no bridge for obfs4 stays**: the call that gives the bridges up answers with the bridge, and says there are none in use. -/
theorem other_bridge_stays_violated :
    ∃ r f, calls ⟨annDir, true⟩ [([.str (str "10.0.0.1:443 AB")], false), ([], false)] (.failed, []) = .ok (r, f) ∧
      r = .done [str "10.0.0.1:443 AB"] [] ∧ f = unlines [str "Bridge 10.0.0.1:443 AB"] :=
  ⟨_, _, by decide +kernel, rfl, rfl⟩

/-- **A bridge can hold any line of the configuration**: after a line feed comes the rest, and Tor takes it for a setting. -/
theorem bridge_writes_settings_violated :
    ∃ r f, handle ⟨annDir, true⟩ [.str (str "obfs4 10.0.0.1:443" ++ 10 :: str "SocksPort 0.0.0.0:9050")] false [] = .ok (r, f) ∧
      r = .done [str "obfs4 10.0.0.1:443"] (str "obfs4") ∧ str "SocksPort 0.0.0.0:9050" ∈ getlines f :=
  ⟨_, _, rfl, by decide +kernel, by decide +kernel⟩

/-- **A bridge can end the program**: and again with every call to follow, as it is in the file. -/
theorem bridge_ends_program_violated :
    handle ⟨annDir, true⟩ [.str (str "obfs4 10.0.0.1:443" ++ 10 :: str "Bridge")] false [] = .ub ∧
      ∃ f, addBridge ⟨annDir, true⟩ (str "obfs4 10.0.0.1:443" ++ 10 :: str "Bridge") [] = .ok f ∧ listBridges f = .ub :=
  ⟨by decide +kernel, _, rfl, by decide +kernel⟩

/-- The data directory of Tor of a user `Bridget`. -/
def bridgetDir : Bytes := str "/home/Bridget/.GrinPP/MAINNET/TOR/data"

/-- **A name with `Bridge` in it turns bridges off**: the user goes from obfs4 to snowflake, and the answer is a bridge of no type: Tor is not
told to use it. -/
theorem bridget_without_bridges_violated :
    ∃ r f, calls ⟨bridgetDir, true⟩ [([.str bridge1], false), ([], true)] (.failed, []) = .ok (r, f) ∧
      r = .done [snowBridge] [] ∧ bridgesOn f = false :=
  ⟨.done [snowBridge] [], unlines [snowLine bridgetDir, bridgeLine snowBridge], by decide +kernel, rfl, by decide +kernel⟩

/-- **From another file system the program ends**: the old file is removed, the new one cannot be renamed.  This is so for all bridges and all
files that have none. -/
theorem other_file_system_violated {dir f : Bytes} {b : Bytes} (hd : OrdinaryDir dir) (hb : b ≠ []) (h : TorMode.off.Holds dir f) :
    handle ⟨dir, false⟩ [.str b] false f = .ub ∧ handle ⟨dir, false⟩ [] true f = .ub := by
  obtain ⟨-, -, h1, h2⟩ := facts hd h
  simp only at h1 h2
  constructor
  · simp only [handle, Bool.false_eq_true, false_and, if_false, disableSnow, h1, Res.ok_bind, ne_eq, List.cons_ne_nil, not_false_eq_true, if_true,
      addBridges, Json.asString, addBridge, hb, h2, addHeaders, Place.replace]
    rfl
  · simp only [handle, ne_eq, not_true_eq_false, and_false, if_false, if_true, enableSnow, h1, Bool.false_eq_true, addHeaders, Place.replace]
    rfl

end Verif.Props
