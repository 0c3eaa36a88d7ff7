import Verif.Lemmas.MovedRun
import Verif.Lemmas.SoundRun
import Verif.Lemmas.Source

/-! # Every macro treats moved arguments alike (continued): the macros -/

namespace Seam
open Spec
set_option linter.unusedSectionVars false

/-- Two options with related content: two cases. -/
local macro "split_opt " h:term " at " x:term ", " y:term : tactic =>
  `(tactic| (have hopt := $h; revert hopt; generalize $x = ox; generalize $y = oy; intro hopt; cases hopt))

section
variable {S : Site → Site → Prop} {W : Str → Str → Prop} [Blanking W]

/-- The same call, moved. -/
inductive LaidCall (S : Site → Site → Prop) (W : Str → Str → Prop) : Call → Call → Prop
  | node (n m : PNode) : Laid S W n m → LaidCall S W (.node n) (.node m)
  | invoke (name : Str) (call call' : PNode) (ps qs : List PNode) : Laid S W call call' → Laids S W ps qs →
      LaidCall S W (.invoke name call ps) (.invoke name call' qs)

/-- The recursive calls do the same. -/
def SimRec (S : Site → Site → Prop) (W : Str → Str → Prop) (rec rec' : Rec) : Prop := ∀ c c', LaidCall S W c c' → Sim S W (Laids S W) (rec c) (rec' c')

variable {ext : Ext} {rec rec' : Rec} {call call' : PNode} {ps qs : List PNode}

theorem SimRec.node (h : SimRec S W rec rec') {n m : PNode} (hn : Laid S W n m) : Sim S W (Laids S W) (rec (.node n)) (rec' (.node m)) :=
  h _ _ (.node _ _ hn)
theorem SimRec.invoke (h : SimRec S W rec rec') {name : Str} (hc : Laid S W call call') (hp : Laids S W ps qs) :
    Sim S W (Laids S W) (rec (.invoke name call ps)) (rec' (.invoke name call' qs)) := h _ _ (.invoke _ _ _ _ _ hc hp)

theorem expandNodes_sim (hr : SimRec S W rec rec') : ∀ {ns ms : List PNode}, Laids S W ns ms →
    Sim S W (Laids S W) (expandNodes rec ns) (expandNodes rec' ms)
  | [], _, h => by cases h; exact .pure .nil
  | n :: ns, _, h => by
    cases h with | cons _ m _ ms h1 h2 =>
    simp only [expandNodes]
    exact Sim.bind (hr.node h1) fun _ _ h => Sim.bind (expandNodes_sim hr h2) fun _ _ h' => .pure (h.append h')

theorem Sim.matchStep {b b' : M Unit} {body body' rest rest' : M (List PNode)} (hb : Sim S W anyR b b')
    (hbody : Sim S W (Laids S W) body body') (hrest : Sim S W (Laids S W) rest rest') :
    Sim S W (Laids S W) (matchStep b body rest) (matchStep b' body' rest') := by
  intro s t hn
  have := hb s t hn
  unfold Seam.matchStep
  rcases hm : b s with ⟨r, s1⟩
  rcases hm' : b' t with ⟨r', t1⟩
  rw [hm, hm'] at this
  obtain ⟨h1, h2⟩ := this
  have back : r ≠ .diverge → Near S W { s1 with scope := s.scope } { t1 with scope := t.scope } := fun hd =>
    have h := h2 hd
    ⟨⟨hn.1.defined, hn.1.scope, h.1.fresh, h.1.log, h.1.hashes, h.1.order⟩, h.2⟩
  cases r with
  | diverge => exact ⟨trivial, fun h => absurd rfl h⟩
  | ok _ =>
    cases r' with
    | ok _ =>
      obtain ⟨g1, g2⟩ := hbody s1 t1 (h2 (by simp))
      refine ⟨g1, fun hd => ?_⟩
      have g := g2 hd
      exact ⟨⟨hn.1.defined, hn.1.scope, g.1.fresh, g.1.log, g.1.hashes, g.1.order⟩, g.2⟩
    | _ => exact absurd h1 id
  | err _ =>
    cases r' with
    | err _ => exact hrest _ _ (back (by simp))
    | _ => exact absurd h1 id
  | panic =>
    cases r' with
    | panic => exact ⟨trivial, fun _ => back (by simp)⟩
    | _ => exact absurd h1 id

theorem matchLoop_sim (hr : SimRec S W rec rec') {expr expr' : PNode} (he : Laid S W expr expr') : ∀ {ps qs : List PNode}, Laids S W ps qs →
    Sim S W (Laids S W) (matchLoop rec expr ps) (matchLoop rec' expr' qs)
  | [], _, h => by cases h; exact .pure .nil
  | p :: ps, _, h => by
    cases h with | cons _ q _ qs h1 h2 =>
    have ih := matchLoop_sim hr he h2
    cases h1 with
    | list ns ms s t e f w v hn hs hw hes hbl =>
      cases hn with
      | nil => exact .fail hs
      | cons pat pat' value value' h3 h4 =>
        rw [matchLoop_eq, matchLoop_eq]
        refine Sim.bind (hr.node h3) fun pats pats' hp => ?_
        cases hp with
        | nil => exact .fail h3.site
        | cons _ _ _ _ h5 h6 =>
          cases h6 with
          | nil => exact Sim.matchStep (bind_sim _ h5 he) (expandNodes_sim hr h4) ih
          | cons => exact .fail h3.site
    | symbol a b h | number a b h | string a b h | raw a b h => exact .fail h.site
    | attr _ _ _ _ _ _ _ _ hs => exact .fail hs

theorem matchMacro_sim (hr : SimRec S W rec rec') (hc : Laid S W call call') (hp : Laids S W ps qs) :
    Sim S W (Laids S W) (matchMacro rec call ps) (matchMacro rec' call' qs) := by
  cases hp with
  | nil => exact .fail hc.site
  | cons e e' ps qs h1 h2 =>
    simp only [matchMacro]
    refine Sim.bind (hr.node h1) fun es es' he => ?_
    cases he with
    | nil => exact .fail h1.site
    | cons _ _ _ _ h3 h4 =>
      cases h4 with
      | nil => exact matchLoop_sim hr h3 h2
      | cons => exact .fail h1.site

theorem createMacro_sim {name : Str} {params params' body body' : List PNode} (hp : Laids S W params params') (hb : Laids S W body body') :
    Sim S W anyR (createMacro name params body) (createMacro name params' body') := by
  unfold createMacro
  have h1 : Laids S W (restParams params) (restParams params') :=
    hp.filter fun a b h => by rw [h.isRest, h.isKwRest]
  have h2 : Laids S W (kwRestParams params) (kwRestParams params') := hp.filter fun a b h => h.isKwRest
  have rest : Sim S W anyR
      (match kwRestParams params with
        | _ :: excess :: _ => M.fail "Excess `&&`-variadic named argument capture variables." excess.site
        | _ => M.define name { params := params, body := body })
      (match kwRestParams params' with
        | _ :: excess :: _ => M.fail "Excess `&&`-variadic named argument capture variables." excess.site
        | _ => M.define name { params := params', body := body' }) := by
    revert h2
    generalize kwRestParams params = x
    generalize kwRestParams params' = y
    intro h2
    have hd : Sim S W anyR (M.define name { params := params, body := body }) (M.define name { params := params', body := body' }) :=
      .define ⟨hp, hb⟩ trivial
    cases h2 with
    | nil => exact hd
    | cons _ _ _ _ _ h3 =>
      cases h3 with
      | nil => exact hd
      | cons _ _ _ _ h4 _ => exact .fail h4.site
  revert h1
  generalize restParams params = x
  generalize restParams params' = y
  intro h1
  cases h1 with
  | nil => exact rest
  | cons _ _ _ _ _ h3 =>
    cases h3 with
    | nil => exact rest
    | cons _ _ _ _ h4 _ => exact .fail h4.site

theorem defineMacro_sim (hr : SimRec S W rec rec') (hc : Laid S W call call') (hp : Laids S W ps qs) :
    Sim S W (Laids S W) (defineMacro rec call ps) (defineMacro rec' call' qs) := by
  cases hp with
  | nil => exact .fail hc.site
  | cons e e' ps qs h1 h2 =>
    cases h1 with
    | symbol a b h =>
      simp only [defineMacro]
      refine Sim.bind (expandNodes_sim hr h2) fun _ _ hb => ?_
      rw [h.value]
      exact Sim.bind (createMacro_sim .nil hb) fun _ _ _ => .pure .nil
    | number a b h | string a b h | raw a b h => exact .fail h.site
    | attr _ _ _ _ _ _ _ _ hs => exact .fail hs
    | list ns ms s t e f w v hn hs hw hes hbl =>
      cases hn with
      | nil => exact .fail hs
      | cons n m ns ms h3 h4 =>
        cases h3 with
        | symbol a b h =>
          simp only [defineMacro]
          rw [h.value]
          exact Sim.bind (createMacro_sim h4 h2) fun _ _ _ => .pure .nil
        | number a b h | string a b h | raw a b h => exact .fail h.site
        | list _ _ _ _ _ _ _ _ _ hs => exact .fail hs
        | attr _ _ _ _ _ _ _ _ hs => exact .fail hs

theorem ifdefMacro_sim (hr : SimRec S W rec rec') (hc : Laid S W call call') (hp : Laids S W ps qs) :
    Sim S W (Laids S W) (ifdefMacro rec call ps) (ifdefMacro rec' call' qs) := by
  cases hp with
  | nil => exact .fail hc.site
  | cons c c' ps qs h1 h2 =>
    cases h2 with
    | nil => exact .fail hc.site
    | cons t t' ps qs h2 h3 =>
      cases h3 with
      | nil =>
        simp only [ifdefMacro]
        split_opt h1.atomic at c.atomic?, c'.atomic?
        · exact .fail h1.site
        · rename_i a b h
          dsimp only
          rw [h.value]
          refine Sim.bind Sim.lookup fun d d' hd => ?_
          cases hd with
          | none => exact .pure .nil
          | some _ => exact Sim.bind (hr.node h2) fun _ _ h => .pure (h.firstLw hc.lw)
      | cons e e' ps qs h3 h4 =>
        cases h4 with
        | cons => exact .fail hc.site
        | nil =>
          simp only [ifdefMacro]
          split_opt h1.atomic at c.atomic?, c'.atomic?
          · exact .fail h1.site
          · rename_i a b h
            dsimp only
            rw [h.value]
            refine Sim.bind Sim.lookup fun d d' hd => ?_
            cases hd with
            | none => exact Sim.bind (hr.node h3) fun _ _ h => .pure (h.firstLw hc.lw)
            | some _ => exact Sim.bind (hr.node h2) fun _ _ h => .pure (h.firstLw hc.lw)

theorem includeMacro_sim (hrefl : ∀ s, S s s) (hr : SimRec S W rec rec') (hc : Laid S W call call') (hp : Laids S W ps qs) :
    Sim S W (Laids S W) (includeMacro ext rec call ps) (includeMacro ext rec' call' qs) := by
  unfold includeMacro
  refine Sim.bind (expandNodes_sim hr hp) fun ns ms h => ?_
  cases h with
  | nil => exact .fail hc.site
  | cons n m ns ms h1 h2 =>
    cases h2 with
    | cons => exact .fail hc.site
    | nil =>
      simp only
      split_opt h1.atomic at n.atomic?, m.atomic?
      · exact .fail h1.site
      · rename_i a b h
        dsimp only
        rw [h.value]
        cases findInclude ext b.value ext.includes with
        | none => exact .fail h.site
        | some pc =>
          obtain ⟨p, code⟩ := pc
          dsimp only
          refine Sim.bind Sim.tick fun i j hij => ?_
          have key : LaidTree S W (parse ext.unescape { path := p, id := i, code := code }) (parse ext.unescape { path := p, id := j, code := code }) := by
            rcases hij with rfl | hij
            · exact (parse_rereads ext.unescape { path := p, id := i, code := code }).mono fun _ _ h => h ▸ hrefl _
            · exact (parse_reread ext.unescape { path := p, id := i, code := code } j).mono hij
          generalize parse ext.unescape { path := p, id := i, code := code } = r at key ⊢
          generalize parse ext.unescape { path := p, id := j, code := code } = r' at key ⊢
          cases key with
          | done _ _ h =>
            cases h with
            | ok tree tree' h =>
              dsimp only
              exact Sim.bind (expandNodes_sim hr h) fun _ _ h => .pure (h.firstLw hc.lw)
            | err e => exact .fail hc.site
            | panic => exact .panic
          | diverge => exact .lift trivial

theorem embedMacro_sim (hr : SimRec S W rec rec') (hc : Laid S W call call') (hp : Laids S W ps qs) :
    Sim S W (Laids S W) (embedMacro ext rec call ps) (embedMacro ext rec' call' qs) := by
  unfold embedMacro
  refine Sim.bind (expandNodes_sim hr hp) fun ns ms h => ?_
  cases h with
  | nil => exact .fail hc.site
  | cons n m ns ms h1 h2 =>
    cases h2 with
    | cons => exact .fail hc.site
    | nil =>
      simp only
      split_opt h1.atomic at n.atomic?, m.atomic?
      · exact .fail h1.site
      · rename_i a b h
        dsimp only
        rw [h.value]
        cases findEmbed ext b.value ext.includes with
        | none => exact .fail h.site
        | some text => exact .pure (.one (.string _ _ (callNode_moved hc _)))

theorem frontmatter_sim {text sep : Str} {s t : Site} (hc : Laid S W call call') (hs : S s t) :
    Sim S W anyR (frontmatter ext text sep call s) (frontmatter ext text sep call' t) := by
  unfold frontmatter
  cases ext.mdFront text with
  | invalid => exact .fail hs
  | none => exact .fail hs
  | yaml y => exact Sim.bind (expandYaml_sim hc.site) fun _ _ _ => .pure trivial
  | toml y => exact Sim.bind (expandToml_sim hc.site) fun _ _ _ => .pure trivial

theorem markdownMacro_sim (hr : SimRec S W rec rec') (hc : Laid S W call call') (hp : Laids S W ps qs) :
    Sim S W (Laids S W) (markdownMacro ext rec call ps) (markdownMacro ext rec' call' qs) := by
  unfold markdownMacro
  refine Sim.bind (expandNodes_sim hr hp) fun ns ms h => Sim.bind (arguments_sim rfl hc h) fun a b hab =>
    Sim.bind (.lift (posNode_same hab hc 1)) fun c d hcd => Sim.bind (.lift (opt_same hab _)) fun o o' ho =>
    Sim.bind (.lift (opt_same hab _)) fun p p' hpp => ?_
  rw [sepOf_moved hpp, hcd.value]
  have front : Sim S W anyR (frontmatter ext d.value (sepOf p') call c.site) (frontmatter ext d.value (sepOf p') call' d.site) :=
    frontmatter_sim hc hcd.site
  have html : Sim S W (Laids S W)
      (match ext.mdHtml d.value with
        | none => M.fail "Failed to render markdown." c.site
        | some html => pure [.raw (callNode call html)])
      (match ext.mdHtml d.value with
        | none => M.fail "Failed to render markdown." d.site
        | some html => pure [.raw (callNode call' html)]) := by
    cases ext.mdHtml d.value with
    | none => exact .fail hcd.site
    | some x => exact .pure (.one (.raw _ _ (callNode_moved hc _)))
  cases ho with
  | none => exact Sim.bind (R := anyR) (.ignoreErr front trivial) fun _ _ _ => html
  | some h =>
    dsimp only
    rw [h.value]
    split
    · exact Sim.bind front fun _ _ _ => .pure .nil
    · split
      · exact html
      · exact .panic

theorem yamlMacro_sim (hr : SimRec S W rec rec') (hc : Laid S W call call') (hp : Laids S W ps qs) :
    Sim S W (Laids S W) (yamlMacro ext rec call ps) (yamlMacro ext rec' call' qs) := by
  unfold yamlMacro
  refine Sim.bind (expandNodes_sim hr hp) fun ns ms h => Sim.bind (arguments_sim rfl hc h) fun a b hab =>
    Sim.bind (.lift (posNode_same hab hc 1)) fun c d hcd => Sim.bind (.lift (opt_same hab _)) fun o o' ho => ?_
  rw [sepOf_moved ho, hcd.value]
  exact expandYaml_sim hc.site
theorem tomlMacro_sim (hr : SimRec S W rec rec') (hc : Laid S W call call') (hp : Laids S W ps qs) :
    Sim S W (Laids S W) (tomlMacro ext rec call ps) (tomlMacro ext rec' call' qs) := by
  unfold tomlMacro
  refine Sim.bind (expandNodes_sim hr hp) fun ns ms h => Sim.bind (arguments_sim rfl hc h) fun a b hab =>
    Sim.bind (.lift (posNode_same hab hc 1)) fun c d hcd => Sim.bind (.lift (opt_same hab _)) fun o o' ho => ?_
  rw [sepOf_moved ho, hcd.value]
  exact expandToml_sim hc.site

theorem findAttr_moved {k : Str} : ∀ {ns ms : List PNode}, Laids S W ns ms → OptR (Laid S W) (findAttr k ns) (findAttr k ms)
  | [], _, h => by cases h; exact .none
  | n :: ns, _, h => by
    cases h with | cons _ m _ ms h1 h2 =>
    have ih := findAttr_moved (k := k) h2
    cases h1 with
    | attr k' n m s t w v hn hs hbl =>
      simp only [findAttr]
      split
      · exact .some hn
      · exact ih
    | _ => exact ih
theorem getItem_same {n m : PNode} (h : Laid S W n m) (item : Str) : SameR S (Laid S W) (getItem n item) (getItem m item) := by
  unfold getItem
  split_opt h.list? at n.list?, m.list?
  · exact .err h.site
  · rename_i as bs hab
    dsimp only
    have hi : OptR (Laid S W) ((parseUsize item).bind (fun i => as[i]?)) ((parseUsize item).bind (fun i => bs[i]?)) := by
      cases parseUsize item with
      | none => exact .none
      | some i => exact hab.get i
    split_opt hi at (parseUsize item).bind (fun i => as[i]?), (parseUsize item).bind (fun i => bs[i]?)
    · dsimp only
      split_opt findAttr_moved (k := item) hab at findAttr item as, findAttr item bs
      · exact .err h.site
      · assumption
    · assumption
theorem getPath_same : ∀ {items : List Str} {n m : PNode}, Laid S W n m → SameR S (Laid S W) (getPath n items) (getPath m items)
  | [], _, _, h => h
  | _ :: _, _, _, h => SameR.bind (getItem_same h _) fun _ _ h => getPath_same h
theorem getMacro_sim (hr : SimRec S W rec rec') (hc : Laid S W call call') (hp : Laids S W ps qs) :
    Sim S W (Laids S W) (getMacro rec call ps) (getMacro rec' call' qs) := by
  unfold getMacro
  refine Sim.bind (expandNodes_sim hr hp) fun ns ms h => Sim.bind (arguments_sim rfl hc h) fun a b hab =>
    Sim.bind (.lift (posNode_same hab hc 1)) fun c d hcd => Sim.bind (.lift (pos_same hab hc 2)) fun n m hn =>
    Sim.bind (.lift (opt_same hab _)) fun o o' ho => ?_
  rw [sepOf_moved ho, hcd.value]
  exact Sim.bind (.lift (getPath_same hn)) fun _ _ h => .pure (.one h)

theorem timezone_sim {x y : Option Node} (h : OptR (LaidAtom S W) x y) : Sim S W (· = ·) (timezone ext x) (timezone ext y) := by
  cases h with
  | none => exact .pure rfl
  | some h =>
    simp only [timezone]
    rw [h.value]
    split
    · exact .fail h.site
    · split
      · exact .pure rfl
      · exact .panic
theorem tzSite_moved {x y : Option Node} (h : OptR (LaidAtom S W) x y) (hc : Laid S W call call') :
    S (match (generalizing := false) x with | some n => n.site | none => call.site) (match (generalizing := false) y with | some n => n.site | none => call'.site) := by
  cases h with
  | none => exact hc.site
  | some h => exact h.site
theorem dateMacro_sim (hr : SimRec S W rec rec') (hc : Laid S W call call') (hp : Laids S W ps qs) :
    Sim S W (Laids S W) (dateMacro ext rec call ps) (dateMacro ext rec' call' qs) := by
  unfold dateMacro
  refine Sim.bind (expandNodes_sim hr hp) fun ns ms h => Sim.bind (arguments_sim rfl hc h) fun a b hab =>
    Sim.bind (.lift (posNode_same hab hc 1)) fun c d hcd => Sim.bind (.lift (posOpt_same hab 2)) fun tm tm' htm =>
    Sim.bind (.lift (opt_same hab _)) fun tz tz' htz => Sim.bind (timezone_sim htz) fun off off' hoff => ?_
  subst hoff
  rw [hcd.value]
  have tail : ∀ secs, Sim S W (Laids S W)
      (if eastOk off then
        match ext.date secs off d.value with
        | some text => pure [PNode.string (callNode call text)]
        | none => M.panic
      else M.fail "Failed to compute UTC+(east) offset." (match (generalizing := false) tz with | some n => n.site | none => call.site))
      (if eastOk off then
        match ext.date secs off d.value with
        | some text => pure [PNode.string (callNode call' text)]
        | none => M.panic
      else M.fail "Failed to compute UTC+(east) offset." (match (generalizing := false) tz' with | some n => n.site | none => call'.site)) := by
    intro secs
    split
    · cases ext.date secs off d.value with
      | none => exact .panic
      | some text => exact .pure (.one (.string _ _ (callNode_moved hc _)))
    · exact .fail (tzSite_moved htz hc)
  cases htm with
  | none => exact tail none
  | some ht =>
    rename_i x y
    dsimp only
    rw [ht.value]
    cases parseI64 y.value with
    | none => exact Sim.bind (R := Eq) (.fail ht.site) fun _ _ h => h ▸ tail _
    | some i =>
      dsimp only
      cases ext.validTime i with
      | true =>
        rw [if_pos rfl, if_pos rfl]
        exact tail (some i)
      | false =>
        rw [if_neg (by simp), if_neg (by simp)]
        exact Sim.bind (R := Eq) (.fail ht.site) fun _ _ h => h ▸ tail _
theorem timestampMacro_sim (hr : SimRec S W rec rec') (hc : Laid S W call call') (hp : Laids S W ps qs) :
    Sim S W (Laids S W) (timestampMacro ext rec call ps) (timestampMacro ext rec' call' qs) := by
  unfold timestampMacro
  refine Sim.bind (expandNodes_sim hr hp) fun ns ms h => Sim.bind (arguments_sim rfl hc h) fun a b hab =>
    Sim.bind (.lift (posNode_same hab hc 1)) fun c d hcd => Sim.bind (.lift (posNode_same hab hc 2)) fun x y hxy =>
    Sim.bind (.lift (opt_same hab _)) fun tz tz' htz => Sim.bind (timezone_sim htz) fun off off' hoff => ?_
  subst hoff
  rw [hcd.value, hxy.value]
  split
  · cases ext.zonedTime y.value d.value with
    | some t => exact .pure (.one (.number _ _ (callNode_moved hc _)))
    | none =>
      dsimp only
      cases ext.naiveTime y.value d.value with
      | some t => exact .pure (.one (.number _ _ (callNode_moved hc _)))
      | none => exact .fail hc.site
  · exact .fail (tzSite_moved htz hc)

theorem atomicValues_moved : ∀ {ns ms : List PNode}, Laids S W ns ms → atomicValues ns = atomicValues ms
  | [], _, h => by cases h; rfl
  | n :: ns, _, h => by
    cases h with | cons _ m _ ms h1 h2 =>
    simp only [atomicValues, atomicValues_moved h2]
    split_opt h1.atomic at n.atomic?, m.atomic?
    · rfl
    · rename_i a b h
      cases atomicValues ms with
      | none => rfl
      | some vs => exact congrArg some (congrArg (· :: vs) h.value)
theorem logMacro_sim (hr : SimRec S W rec rec') (hc : Laid S W call call') (hp : Laids S W ps qs) :
    Sim S W (Laids S W) (logMacro rec call ps) (logMacro rec' call' qs) := by
  unfold logMacro
  refine Sim.bind (expandNodes_sim hr hp) fun ns ms h => ?_
  rw [atomicValues_moved h]
  cases atomicValues ms with
  | none => exact .fail hc.site
  | some words => exact Sim.bind (R := anyR) (.emit ⟨rfl, hc.site⟩ trivial) fun _ _ _ => .pure .nil

theorem osEnvMacro_sim (hr : SimRec S W rec rec') (hc : Laid S W call call') (hp : Laids S W ps qs) :
    Sim S W (Laids S W) (osEnvMacro ext rec call ps) (osEnvMacro ext rec' call' qs) := by
  unfold osEnvMacro
  refine Sim.bind (expandNodes_sim hr hp) fun ns ms h => ?_
  cases h with
  | nil => exact .fail hc.site
  | cons n m ns ms h1 h2 =>
    cases h2 with
    | cons => exact .fail hc.site
    | nil =>
      simp only
      split_opt h1.atomic at n.atomic?, m.atomic?
      · exact .fail h1.site
      · rename_i a b h
        dsimp only
        rw [h.value]
        cases ext.envVar b.value with
        | none => exact .fail h.site
        | some v => exact .pure (.one (.string _ _ ⟨rfl, h.lw, h.site⟩))

theorem formatArgs_same : ∀ {ns ms : List PNode}, Laids S W ns ms → SameR S (· = ·) (formatArgs ns) (formatArgs ms)
  | [], _, h => by cases h; exact rfl
  | n :: ns, _, h => by
    cases h with | cons _ m _ ms h1 h2 =>
    have ih := formatArgs_same h2
    have go : ∀ (name : Option Str) {v v' : PNode}, Laid S W v v' → SameR S (· = ·)
        (match v.atomic? with
          | none => .err (expErr "In `%format', the compound type is not formattable." v.site)
          | some a => do
            let rest ← formatArgs ns
            .ok ((name, a.value) :: rest))
        (match v'.atomic? with
          | none => .err (expErr "In `%format', the compound type is not formattable." v'.site)
          | some a => do
            let rest ← formatArgs ms
            .ok ((name, a.value) :: rest)) := by
      intro name v v' hv
      split_opt hv.atomic at v.atomic?, v'.atomic?
      · exact .err hv.site
      · rename_i a b h
        dsimp only
        rw [h.value]
        exact SameR.bind ih fun _ _ h => congrArg _ h
    cases h1 with
    | attr k n m s t w v hn hs hbl => exact go (some k) hn
    | symbol a b h => exact go none (.symbol a b h)
    | number a b h => exact go none (.number a b h)
    | string a b h => exact go none (.string a b h)
    | raw a b h => exact go none (.raw a b h)
    | list ns ms s t e f w v h1 h2 h3 h4 hbl => exact go none (.list ns ms s t e f w v h1 h2 h3 h4 hbl)
theorem formatMacro_sim (hr : SimRec S W rec rec') (hc : Laid S W call call') (hp : Laids S W ps qs) :
    Sim S W (Laids S W) (formatMacro ext rec call ps) (formatMacro ext rec' call' qs) := by
  unfold formatMacro
  refine Sim.bind (expandNodes_sim hr hp) fun ns ms h => ?_
  cases h with
  | nil => exact .fail hc.site
  | cons n m ns ms h1 h2 =>
    cases h1 with
    | string a b h =>
      dsimp only
      rw [h.value]
      split
      · refine Sim.bind (.lift (formatArgs_same h2)) fun x y hxy => ?_
        subst hxy
        cases ext.formatText b.value x with
        | none => exact .fail h.site
        | some v => exact .pure (.one (.string _ _ (callNode_moved hc _)))
      · exact .fail h.site
    | symbol a b h | number a b h | raw a b h => exact .fail h.site
    | list _ _ _ _ _ _ _ _ _ hs => exact .fail hs
    | attr _ _ _ _ _ _ _ _ hs => exact .fail hs

theorem namespaceOpts_same : ∀ {ns ms : List PNode} {sep : Str}, Laids S W ns ms →
    SameR S (fun p q => p.1 = q.1 ∧ Laids S W p.2 q.2) (namespaceOpts sep ns) (namespaceOpts sep ms)
  | [], _, sep, h => by cases h; exact ⟨rfl, .nil⟩
  | n :: ns, _, sep, h => by
    cases h with | cons _ m _ ms h1 h2 =>
    cases h1 with
    | attr k v v' s t w w' hv hs hbl =>
      simp only [namespaceOpts]
      split
      · split_opt hv.atomic at v.atomic?, v'.atomic?
        · exact .err hv.site
        · rename_i a b h
          dsimp only
          rw [h.value]
          exact namespaceOpts_same h2
      · exact .err hs
    | symbol a b h => exact ⟨rfl, .cons _ _ _ _ (.symbol a b h) h2⟩
    | number a b h => exact ⟨rfl, .cons _ _ _ _ (.number a b h) h2⟩
    | string a b h => exact ⟨rfl, .cons _ _ _ _ (.string a b h) h2⟩
    | raw a b h => exact ⟨rfl, .cons _ _ _ _ (.raw a b h) h2⟩
    | list ns ms s t e f w v h3 h4 h5 h6 hbl => exact ⟨rfl, .cons _ _ _ _ (.list ns ms s t e f w v h3 h4 h5 h6 hbl) h2⟩

theorem export_near {s t s1 t1 : St} {pre : Str} (hn : Near S W s t) (h1 : Near S W s1 t1) :
    Near S W { s1 with scope := exportScope pre s1.scope s.scope } { t1 with scope := exportScope pre t1.scope t.scope } := by
  have hopt : ∀ name, OptR (LaidMacro S W) (exportScope pre s1.scope s.scope name) (exportScope pre t1.scope t.scope name) := by
    intro name
    unfold exportScope
    split
    · split_opt h1.lookup (name.drop pre.length) at s1.scope (name.drop pre.length), t1.scope (name.drop pre.length)
      · exact hn.lookup name
      · rename_i h; exact .some h
    · exact hn.lookup name
  refine ⟨⟨fun name => ?_, fun name a b ha hb => ?_, h1.1.fresh, h1.1.log, h1.1.hashes, h1.1.order⟩, h1.2⟩
  · have := hopt name
    show exportScope pre s1.scope s.scope name = none ↔ exportScope pre t1.scope t.scope name = none
    revert this
    generalize exportScope pre s1.scope s.scope name = x
    generalize exportScope pre t1.scope t.scope name = y
    intro this
    cases this <;> simp
  · have := hopt name
    replace ha : exportScope pre s1.scope s.scope name = some a := ha
    replace hb : exportScope pre t1.scope t.scope name = some b := hb
    rw [ha, hb] at this
    cases this; assumption

theorem namespaceMacro_sim (hr : SimRec S W rec rec') (hc : Laid S W call call') (hp : Laids S W ps qs) :
    Sim S W (Laids S W) (namespaceMacro rec call ps) (namespaceMacro rec' call' qs) := by
  intro s t hn
  have := expandNodes_sim hr hp s t hn
  unfold namespaceMacro
  rcases hm : expandNodes rec ps s with ⟨r, s1⟩
  rcases hm' : expandNodes rec' qs t with ⟨r', t1⟩
  rw [hm, hm'] at this
  obtain ⟨h1, h2⟩ := this
  have back : r ≠ .diverge → Near S W { s1 with scope := s.scope } { t1 with scope := t.scope } := fun hd =>
    have h := h2 hd
    ⟨⟨hn.1.defined, hn.1.scope, h.1.fresh, h.1.log, h.1.hashes, h.1.order⟩, h.2⟩
  cases r with
  | diverge => exact ⟨trivial, fun h => absurd rfl h⟩
  | err _ =>
    cases r' with
    | err _ => exact ⟨h1, fun _ => back (by simp)⟩
    | _ => exact absurd h1 id
  | panic =>
    cases r' with
    | panic => exact ⟨trivial, fun _ => back (by simp)⟩
    | _ => exact absurd h1 id
  | ok args =>
    cases r' with
    | ok args' =>
      have hb := back (by simp)
      have h1n := h2 (by simp)
      replace h1 : Laids S W args args' := h1
      cases h1 with
      | nil => exact ⟨⟨rfl, rfl, hc.site⟩, fun _ => hb⟩
      | cons n m ns ms h3 h4 =>
        dsimp only
        split_opt h3.atomic at n.atomic?, m.atomic?
        · exact ⟨⟨rfl, rfl, hc.site⟩, fun _ => hb⟩
        · rename_i a b h
          dsimp only
          rw [h.value]
          have ho := namespaceOpts_same (sep := ['/']) h4
          revert ho
          generalize namespaceOpts ['/'] ns = x
          generalize namespaceOpts ['/'] ms = y
          intro ho
          cases x <;> cases y <;> first
            | exact absurd ho id
            | exact ⟨trivial, fun h => absurd rfl h⟩
            | exact ⟨ho, fun _ => hb⟩
            | skip
          rename_i p q
          obtain ⟨sep, rest⟩ := p
          obtain ⟨sep', rest'⟩ := q
          obtain ⟨ho1, ho2⟩ := ho
          dsimp only at ho1 ho2
          subst ho1
          exact ⟨ho2, fun _ => export_near hn h1n⟩
    | _ => exact absurd h1 id

theorem forLoop_sim (hr : SimRec S W rec rec') {it it' : PNode} {body body' : List PNode} (hi : Laid S W it it') (hb : Laids S W body body') :
    ∀ {ns ms : List PNode}, Laids S W ns ms → Sim S W (Laids S W) (forLoop rec it body ns) (forLoop rec' it' body' ms)
  | [], _, h => by cases h; exact .pure .nil
  | n :: ns, _, h => by
    cases h with | cons _ m _ ms h1 h2 =>
    simp only [forLoop]
    exact Sim.bind (bind_sim it hi h1) fun _ _ _ => Sim.bind (expandNodes_sim hr hb) fun _ _ h =>
      Sim.bind (forLoop_sim hr hi hb h2) fun _ _ h' => .pure (h.append h')
theorem forMacro_sim (hr : SimRec S W rec rec') (hc : Laid S W call call') (hp : Laids S W ps qs) :
    Sim S W (Laids S W) (forMacro rec call ps) (forMacro rec' call' qs) := by
  unfold forMacro
  exact Sim.bind (arguments_sim rfl hc hp) fun a b hab => Sim.bind (.lift (pos_same hab hc 1)) fun i i' hi =>
    Sim.bind (.lift (posNode_same hab hc 2)) fun _ _ _ => Sim.bind (.lift (posList_same hab hc 3)) fun l l' hl =>
    Sim.bind (expandNodes_sim hr hl) fun _ _ h => Sim.inner (forLoop_sim hr hi hab.trailing h)

theorem globCollect_same {s t : Site} (hs : S s t) {type : Option Str} {by_ : SortBy} : ∀ (fs : List (Option (Option GFile))) (acc : List GFile),
    SameR S (· = ·) (globCollect s type by_ acc fs) (globCollect t type by_ acc fs)
  | [], _ => rfl
  | none :: _, _ => .err hs
  | some none :: _, _ => trivial
  | some (some _) :: fs, _ => globCollect_same hs fs _
theorem globMacro_sim (hr : SimRec S W rec rec') (hc : Laid S W call call') (hp : Laids S W ps qs) :
    Sim S W (Laids S W) (globMacro ext rec call ps) (globMacro ext rec' call' qs) := by
  unfold globMacro
  refine Sim.bind (expandNodes_sim hr hp) fun ns ms h => Sim.bind (arguments_sim rfl hc h) fun a b hab =>
    Sim.bind (.lift (posNode_same hab hc 1)) fun c d hcd => Sim.bind (.lift (opt_same hab _)) fun ty ty' hty =>
    Sim.bind (.lift (opt_same hab _)) fun so so' hso => Sim.bind (.lift (opt_same hab _)) fun o o' ho => ?_
  rw [hty.values, hso.values, hcd.value, isAscending_moved ho]
  dsimp only
  split
  · cases sortByOf (so'.map (·.value)) with
    | none => exact .panic
    | some by_ =>
      dsimp only
      cases ext.glob d.value with
      | none => exact .fail hcd.site
      | some paths =>
        refine Sim.bind (.lift (globCollect_same hcd.site _ _)) fun fs fs' hfs => ?_
        subst hfs
        generalize (if isAscending o' = true then fs else fs.reverse) = gs
        refine .pure (Laids.firstLw ?_ Blanking.nil)
        induction gs with
        | nil => exact .nil
        | cons g gs ih => exact .cons _ _ _ _ (.string _ _ ⟨rfl, Blanking.space, hcd.site⟩) ih
  · exact .panic

theorem buildText_same (hW : ∀ w v, W w v → w = v) : ∀ {ns ms : List PNode}, Laids S W ns ms → SameR S (· = ·) (buildText ns) (buildText ms)
  | [], _, h => by cases h; exact rfl
  | n :: ns, _, h => by
    cases h with | cons _ m _ ms h1 h2 =>
    have ih := buildText_same hW h2
    simp only [buildText]
    split_opt h1.atomic at n.atomic?, m.atomic?
    · exact .err h1.site
    · rename_i a b h
      dsimp only
      rw [h.value, hW _ _ h.lw]
      exact SameR.bind ih fun _ _ h => congrArg _ h
theorem rawMacro_sim (hW : ∀ w v, W w v → w = v) (hr : SimRec S W rec rec') (hc : Laid S W call call') (hp : Laids S W ps qs) :
    Sim S W (Laids S W) (rawMacro rec call ps) (rawMacro rec' call' qs) :=
  Sim.bind (expandNodes_sim hr hp) fun _ _ h => Sim.bind (.lift (buildText_same hW h)) fun _ _ h =>
    .pure (.one (h ▸ .raw _ _ (callNode_moved hc _)))
theorem stringMacro_sim (hW : ∀ w v, W w v → w = v) (hr : SimRec S W rec rec') (hc : Laid S W call call') (hp : Laids S W ps qs) :
    Sim S W (Laids S W) (stringMacro rec call ps) (stringMacro rec' call' qs) :=
  Sim.bind (expandNodes_sim hr hp) fun _ _ h => Sim.bind (.lift (buildText_same hW h)) fun _ _ h =>
    .pure (.one (h ▸ .string _ _ (callNode_moved hc _)))
theorem numberMacro_sim (hr : SimRec S W rec rec') (hc : Laid S W call call') (hp : Laids S W ps qs) :
    Sim S W (Laids S W) (numberMacro rec call ps) (numberMacro rec' call' qs) :=
  Sim.bind (expandNodes_sim hr hp) fun _ _ h => Sim.bind (arguments_sim rfl hc h) fun _ _ hab =>
    Sim.bind (.lift (restNodes_same hab)) fun _ _ h => .pure (pairs_nodes (fun a b h => .number a b h) h)
theorem symbolMacro_sim (hr : SimRec S W rec rec') (hc : Laid S W call call') (hp : Laids S W ps qs) :
    Sim S W (Laids S W) (symbolMacro rec call ps) (symbolMacro rec' call' qs) :=
  Sim.bind (expandNodes_sim hr hp) fun _ _ h => Sim.bind (arguments_sim rfl hc h) fun _ _ hab =>
    Sim.bind (.lift (restNodes_same hab)) fun _ _ h => .pure (pairs_nodes (fun a b h => .symbol a b h) h)

theorem reverseMacro_sim (hr : SimRec S W rec rec') (hc : Laid S W call call') (hp : Laids S W ps qs) :
    Sim S W (Laids S W) (reverseMacro rec call ps) (reverseMacro rec' call' qs) := by
  unfold reverseMacro
  refine Sim.bind (expandNodes_sim hr hp) fun ns ms h => Sim.bind (arguments_sim rfl hc h) fun _ _ hab =>
    Sim.bind (.lift (posList_same hab hc 1)) fun l l' hl => ?_
  cases h with
  | nil => exact .panic
  | cons n m ns ms h1 h2 =>
    cases h1 with
    | list _ _ _ _ _ _ _ _ _ hs hw hes hbl => exact .pure (.one (.list _ _ _ _ _ _ _ _ (hl.layout hl.reverse) hs hw hes hbl))
    | _ => exact .panic

/-! ### Sorting -/

theorem movedMap_zip {α : Type} : ∀ {l l' : List (α × PNode)}, LaidMap S W l l' →
    ∃ z : List (α × PNode × PNode), (∀ p ∈ z, Laid S W p.2.1 p.2.2) ∧ l = z.map (fun p => (p.1, p.2.1)) ∧
      l' = z.map (fun p => (p.1, p.2.2))
  | _, _, .nil => ⟨[], by simp, rfl, rfl⟩
  | (k, v) :: _, (k', v') :: _, .cons h hs => by
    obtain ⟨z, h1, h2, h3⟩ := movedMap_zip hs
    obtain ⟨h4, h5⟩ := h
    dsimp only at h4 h5
    subst h4
    refine ⟨(k, v, v') :: z, ?_, by simp [h2], by simp [h3]⟩
    intro p hp
    rcases List.mem_cons.1 hp with rfl | hp
    · exact h5
    · exact h1 p hp
theorem sortItems_moved {asc : Bool} {l l' : List (Str × PNode)} (h : LaidMap S W l l') :
    LaidMap S W (sortItems ext asc l) (sortItems ext asc l') := by
  obtain ⟨z, h1, h2, h3⟩ := movedMap_zip h
  let le (a b : Str × PNode × PNode) : Bool := if asc then keyCmp ext a.1 b.1 != .gt else keyCmp ext b.1 a.1 != .gt
  have g1 : sortItems ext asc l = (z.mergeSort le).map (fun p => (p.1, p.2.1)) := by
    subst h2
    unfold sortItems
    exact (List.map_mergeSort (f := fun p : Str × PNode × PNode => (p.1, p.2.1)) (fun _ _ _ _ => rfl)).symm
  have g2 : sortItems ext asc l' = (z.mergeSort le).map (fun p => (p.1, p.2.2)) := by
    subst h3
    unfold sortItems
    exact (List.map_mergeSort (f := fun p : Str × PNode × PNode => (p.1, p.2.2)) (fun _ _ _ _ => rfl)).symm
  have g3 : ∀ p ∈ z.mergeSort le, Laid S W p.2.1 p.2.2 := fun p hp => h1 p ((List.mergeSort_perm z le).mem_iff.1 hp)
  rw [g1, g2]
  revert g3
  generalize z.mergeSort le = y
  clear g1 g2 h1 h2 h3
  intro g3
  induction y with
  | nil => exact .nil
  | cons p y ih =>
    exact .cons ⟨rfl, g3 p (by simp)⟩ (ih fun q hq => g3 q (by simp [hq]))

theorem sortKeys_sim (hr : SimRec S W rec rec') (hc : Laid S W call call') {f : Str} {s t : Site} (hs : S s t) :
    ∀ {ns ms : List PNode}, Laids S W ns ms → Sim S W (LaidMap S W) (sortKeys rec call f s ns) (sortKeys rec' call' f t ms)
  | [], _, h => by cases h; exact .pure .nil
  | n :: ns, _, h => by
    cases h with | cons _ m _ ms h1 h2 =>
    simp only [sortKeys]
    refine Sim.bind (Sim.rethrow hs (hr.invoke hc (.one h1))) fun k k' hk => ?_
    cases hk with
    | nil => exact .fail hs
    | cons k k' _ _ h3 h4 =>
      cases h4 with
      | cons => exact .fail hs
      | nil =>
        dsimp only
        split_opt h3.atomic at k.atomic?, k'.atomic?
        · exact .fail h3.site
        · rename_i a b h
          dsimp only
          rw [h.value]
          exact Sim.bind (sortKeys_sim hr hc hs h2) fun _ _ h => .pure (.cons ⟨rfl, h1⟩ h)
theorem sortMacro_sim (hr : SimRec S W rec rec') (hc : Laid S W call call') (hp : Laids S W ps qs) :
    Sim S W (Laids S W) (sortMacro ext rec call ps) (sortMacro ext rec' call' qs) := by
  unfold sortMacro
  refine Sim.bind (expandNodes_sim hr hp) fun ns ms h => Sim.bind (arguments_sim rfl hc h) fun _ _ hab =>
    Sim.bind (.lift (pos_same hab hc 1)) fun n m hn => Sim.bind (.lift (opt_same hab _)) fun o o' ho =>
    Sim.bind (.lift (opt_same hab _)) fun k k' hk => ?_
  dsimp only
  rw [isAscending_moved ho]
  have go : ∀ (fn : Str) {s t : Site}, S s t → Sim S W (Laids S W)
      (match (generalizing := false) n with
        | .list nodes site e _ => do
          let items ← sortKeys rec call fn s nodes
          let sorted := (sortItems ext (isAscending o') items).map (·.2)
          pure [PNode.list (layoutOf nodes sorted) site e call.lw]
        | n => M.fail "`%sort` expects a list." n.site)
      (match (generalizing := false) m with
        | .list nodes site e _ => do
          let items ← sortKeys rec' call' fn t nodes
          let sorted := (sortItems ext (isAscending o') items).map (·.2)
          pure [PNode.list (layoutOf nodes sorted) site e call'.lw]
        | n => M.fail "`%sort` expects a list." n.site) := by
    intro fn s t hst
    cases hn with
    | list ns ms s t e f w v hns hs hw hes hbl =>
      exact Sim.bind (sortKeys_sim hr hc hst hns) fun _ _ h =>
        .pure (.one (.list _ _ _ _ _ _ _ _ (hns.layout (sortItems_moved h).values) hs hw hes hc.lw))
    | symbol a b h | number a b h | string a b h | raw a b h => exact .fail h.site
    | attr _ _ _ _ _ _ _ _ hs => exact .fail hs
  cases hk with
  | none => exact go _ hc.site
  | some h =>
    dsimp only
    rw [h.value]
    exact go _ h.site

theorem foldl_moved : ∀ {x y : List Node} (acc : Str), Pairs (LaidAtom S W) x y →
    x.foldl (fun acc x => acc ++ x.value) acc = y.foldl (fun acc x => acc ++ x.value) acc
  | _, _, _, .nil => rfl
  | _ :: _, _ :: _, acc, .cons h hs => by simp only [List.foldl_cons, h.value]; exact foldl_moved _ hs
theorem joinMacro_sim (hr : SimRec S W rec rec') (hc : Laid S W call call') (hp : Laids S W ps qs) :
    Sim S W (Laids S W) (joinMacro rec call ps) (joinMacro rec' call' qs) := by
  unfold joinMacro
  refine Sim.bind (expandNodes_sim hr hp) fun ns ms h => Sim.bind (arguments_sim rfl hc h) fun _ _ hab =>
    Sim.bind (.lift (posNode_same hab hc 1)) fun c d hcd => Sim.bind (.lift (opt_same hab _)) fun o o' ho =>
    Sim.bind (.lift (restNodes_same hab)) fun _ _ h => ?_
  dsimp only
  rw [hcd.value, pairs_values h]
  cases ho with
  | none => exact .pure (.one (.string _ _ (callNode_moved hc _)))
  | some ho =>
    dsimp only
    rw [ho.value]
    exact .pure (.one (.string _ _ (callNode_moved hc _)))
theorem concatMacro_sim (hr : SimRec S W rec rec') (hc : Laid S W call call') (hp : Laids S W ps qs) :
    Sim S W (Laids S W) (concatMacro rec call ps) (concatMacro rec' call' qs) :=
  Sim.bind (expandNodes_sim hr hp) fun _ _ h => Sim.bind (arguments_sim rfl hc h) fun _ _ hab =>
    Sim.bind (.lift (restNodes_same hab)) fun _ _ h => .pure (.one (foldl_moved [] h ▸ .string _ _ (callNode_moved hc _)))

theorem mapLoop_sim (hr : SimRec S W rec rec') (hc : Laid S W call call') {f : Str} : ∀ {ns ms : List PNode}, Laids S W ns ms →
    Sim S W (Laids S W) (mapLoop rec call f ns) (mapLoop rec' call' f ms)
  | [], _, h => by cases h; exact .pure .nil
  | n :: ns, _, h => by
    cases h with | cons _ m _ ms h1 h2 =>
    simp only [mapLoop]
    exact Sim.bind (hr.invoke hc (.one h1)) fun _ _ h => Sim.bind (mapLoop_sim hr hc h2) fun _ _ h' => .pure (h.append h')
theorem mapMacro_sim (hr : SimRec S W rec rec') (hc : Laid S W call call') (hp : Laids S W ps qs) :
    Sim S W (Laids S W) (mapMacro rec call ps) (mapMacro rec' call' qs) :=
  Sim.bind (expandNodes_sim hr hp) fun _ _ h => Sim.bind (arguments_sim rfl hc h) fun _ _ hab =>
    Sim.bind (.lift (posNode_same hab hc 1)) fun _ _ h => h.value ▸ mapLoop_sim hr hc hab.trailing
theorem isNull_moved {ns ms : List PNode} (h : Laids S W ns ms) : isNull ns = isNull ms := by
  cases h with
  | nil => rfl
  | cons _ _ _ _ h1 h2 => cases h2 with
    | nil => exact h1.null
    | cons => rfl
theorem filterLoop_sim (hr : SimRec S W rec rec') (hc : Laid S W call call') {f : Str} : ∀ {ns ms : List PNode}, Laids S W ns ms →
    Sim S W (Laids S W) (filterLoop rec call f ns) (filterLoop rec' call' f ms)
  | [], _, h => by cases h; exact .pure .nil
  | n :: ns, _, h => by
    cases h with | cons _ m _ ms h1 h2 =>
    simp only [filterLoop]
    refine Sim.bind (hr.invoke hc (.one h1)) fun _ _ h => Sim.bind (filterLoop_sim hr hc h2) fun _ _ h' => .pure ?_
    rw [isNull_moved h]
    split
    · exact h'
    · exact h.append h'
theorem filterMacro_sim (hr : SimRec S W rec rec') (hc : Laid S W call call') (hp : Laids S W ps qs) :
    Sim S W (Laids S W) (filterMacro rec call ps) (filterMacro rec' call' qs) :=
  Sim.bind (expandNodes_sim hr hp) fun _ _ h => Sim.bind (arguments_sim rfl hc h) fun _ _ hab =>
    Sim.bind (.lift (posNode_same hab hc 1)) fun _ _ h => h.value ▸ filterLoop_sim hr hc hab.trailing

theorem splat_moved : ∀ {ns ms : List PNode}, Laids S W ns ms → Laids S W (splat ns) (splat ms)
  | [], _, h => by cases h; exact .nil
  | n :: ns, _, h => by
    cases h with | cons _ m _ ms h1 h2 =>
    have ih := splat_moved h2
    cases h1 with
    | list _ _ _ _ _ _ _ _ hns _ _ _ hbl => exact (hns.firstLw hbl).append ih
    | symbol a b h => exact .cons _ _ _ _ (.symbol a b h) ih
    | number a b h => exact .cons _ _ _ _ (.number a b h) ih
    | string a b h => exact .cons _ _ _ _ (.string a b h) ih
    | raw a b h => exact .cons _ _ _ _ (.raw a b h) ih
    | attr k n m s t w v hn hs hbl => exact .cons _ _ _ _ (.attr k n m s t w v hn hs hbl) ih
theorem splatMacro_sim (hr : SimRec S W rec rec') (hp : Laids S W ps qs) :
    Sim S W (Laids S W) (splatMacro rec ps) (splatMacro rec' qs) :=
  Sim.bind (expandNodes_sim hr hp) fun _ _ h => .pure (splat_moved h)
theorem listMacro_sim (hr : SimRec S W rec rec') (hc : Laid S W call call') (hp : Laids S W ps qs) :
    Sim S W (Laids S W) (listMacro rec call ps) (listMacro rec' call' qs) := by
  unfold listMacro
  refine Sim.bind (expandNodes_sim hr hp) fun _ _ h => ?_
  cases hc with
  | list _ _ _ _ _ _ _ _ _ hs hw hes hbl => exact .pure (.one (.list _ _ _ _ _ _ _ _ h hs hw hes hbl))
  | _ => exact .panic
theorem stripMacro_sim (hr : SimRec S W rec rec') (hp : Laids S W ps qs) :
    Sim S W (Laids S W) (stripMacro rec ps) (stripMacro rec' qs) :=
  Sim.bind (expandNodes_sim hr hp) fun _ _ h => .pure (h.firstLw Blanking.nil)
theorem applyMacro_sim (hr : SimRec S W rec rec') (hc : Laid S W call call') (hp : Laids S W ps qs) :
    Sim S W (Laids S W) (applyMacro rec call ps) (applyMacro rec' call' qs) :=
  Sim.bind (expandNodes_sim hr hp) fun _ _ h => Sim.bind (arguments_sim rfl hc h) fun _ _ hab =>
    Sim.bind (.lift (posNode_same hab hc 1)) fun _ _ h => h.value ▸ hr.invoke hc hab.trailing
theorem lambdaMacro_sim (hu : ext.uuid call.site = ext.uuid call'.site) (hc : Laid S W call call') (hp : Laids S W ps qs) :
    Sim S W (Laids S W) (lambdaMacro ext call ps) (lambdaMacro ext call' qs) := by
  unfold lambdaMacro
  refine Sim.bind (arguments_sim rfl hc hp) fun a b hab => Sim.bind (.lift (pos_same hab hc 1)) fun n m hn => ?_
  dsimp only
  rw [hu]
  have tail : ∀ {as bs : List PNode}, Laids S W as bs → Sim S W (Laids S W)
      (do createMacro (str! "__lambda" ++ ext.uuid call'.site) as a.trailing
          pure [PNode.symbol (callNode call (str! "__lambda" ++ ext.uuid call'.site))])
      (do createMacro (str! "__lambda" ++ ext.uuid call'.site) bs b.trailing
          pure [PNode.symbol (callNode call' (str! "__lambda" ++ ext.uuid call'.site))]) :=
    fun h => Sim.bind (createMacro_sim h hab.trailing) fun _ _ _ => .pure (.one (.symbol _ _ (callNode_moved hc _)))
  cases hn with
  | list _ _ _ _ _ _ _ _ hns => exact tail hns
  | symbol a b h => exact tail (.one (.symbol a b h))
  | number a b h | string a b h | raw a b h => exact Sim.bind (R := Laids S W) (.fail h.site) fun _ _ h => tail h
  | attr _ _ _ _ _ _ _ _ hs => exact Sim.bind (R := Laids S W) (.fail hs) fun _ _ h => tail h

theorem userMacro_sim (hr : SimRec S W rec rec') {name : Str} (hc : Laid S W call call') (hp : Laids S W ps qs) :
    Sim S W (Laids S W) (userMacro rec name call ps) (userMacro rec' name call' qs) := by
  unfold userMacro
  refine Sim.bind (expandNodes_sim hr hp) fun _ _ h => Sim.bind Sim.lookup fun d d' hd => ?_
  cases hd with
  | none => exact .fail hc.site
  | some hm => exact Sim.inner (Sim.bind (bindLoop_sim _ hc ⟨rfl, rfl, .nil, .nil⟩ hm.1 h) fun _ _ _ => expandNodes_sim hr hm.2)

theorem runBuiltin_sim (hrefl : ∀ s, S s s) (hr : SimRec S W rec rec') {b : Builtin} (hc : Laid S W call call') (hp : Laids S W ps qs)
    (hb : b = .lambda → ext.uuid call.site = ext.uuid call'.site) (hx : seesLayout b = true → ∀ w v, W w v → w = v) :
    Sim S W (Laids S W) (runBuiltin ext rec b call ps) (runBuiltin ext rec' b call' qs) := by
  cases b with
  | define => exact defineMacro_sim hr hc hp
  | match_ => exact matchMacro_sim hr hc hp
  | ifdef => exact ifdefMacro_sim hr hc hp
  | do_ => exact expandNodes_sim hr hp
  | get => exact getMacro_sim hr hc hp
  | raw => exact rawMacro_sim (hx rfl) hr hc hp
  | string => exact stringMacro_sim (hx rfl) hr hc hp
  | number => exact numberMacro_sim hr hc hp
  | symbol => exact symbolMacro_sim hr hc hp
  | include_ => exact includeMacro_sim hrefl hr hc hp
  | embed => exact embedMacro_sim hr hc hp
  | namespace_ => exact namespaceMacro_sim hr hc hp
  | markdown => exact markdownMacro_sim hr hc hp
  | yaml => exact yamlMacro_sim hr hc hp
  | toml => exact tomlMacro_sim hr hc hp
  | glob => exact globMacro_sim hr hc hp
  | for_ => exact forMacro_sim hr hc hp
  | sort => exact sortMacro_sim hr hc hp
  | reverse => exact reverseMacro_sim hr hc hp
  | date => exact dateMacro_sim hr hc hp
  | timestamp => exact timestampMacro_sim hr hc hp
  | join => exact joinMacro_sim hr hc hp
  | concat => exact concatMacro_sim hr hc hp
  | map => exact mapMacro_sim hr hc hp
  | filter => exact filterMacro_sim hr hc hp
  | splat => exact splatMacro_sim hr hp
  | list => exact listMacro_sim hr hc hp
  | strip => exact stripMacro_sim hr hp
  | apply => exact applyMacro_sim hr hc hp
  | lambda => exact lambdaMacro_sim (hb rfl) hc hp
  | log => exact logMacro_sim hr hc hp
  | format => exact formatMacro_sim hr hc hp
  | osEnv => exact osEnvMacro_sim hr hc hp

theorem expandNode_sim (hr : SimRec S W rec rec') {n m : PNode} (hn : Laid S W n m) : Sim S W (Laids S W) (expandNode rec n) (expandNode rec' m) := by
  cases hn with
  | number a b h => exact .pure (.one (.number a b h))
  | string a b h => exact .pure (.one (.string a b h))
  | raw a b h => exact .pure (.one (.raw a b h))
  | attr k n m s t w v hn hs hbl =>
    simp only [expandNode]
    refine Sim.bind (hr.node hn) fun _ _ h => ?_
    cases h with
    | nil => exact .panic
    | cons _ _ _ _ h1 h2 => exact .pure (.cons _ _ _ _ (.attr _ _ _ _ _ _ _ h1 hs hbl) h2)
  | symbol a b h =>
    simp only [expandNode]
    rw [h.value]
    cases macroName? b.value with
    | none => exact .pure (.one (.symbol a b h))
    | some name =>
      dsimp only
      unfold expandVariable
      refine Sim.bind Sim.lookup fun d d' hd => ?_
      cases hd with
      | none => exact .fail h.site
      | some hm =>
        dsimp only
        rw [hm.1.isEmpty]
        split
        · exact Sim.bind (expandNodes_sim hr hm.2) fun _ _ h2 => .pure (h2.firstLw h.lw)
        · exact .fail h.site
  | list ns ms s t e f w v hn hs hw hes hbl =>
    cases hn with
    | nil => exact .pure (.one (.list _ _ _ _ _ _ _ _ .nil hs hw hes hbl))
    | cons n m ns ms h1 h2 =>
      simp only [expandNode]
      have hname : n.symbol?.bind (fun a => macroName? a.value) = m.symbol?.bind (fun a => macroName? a.value) := by
        split_opt h1.symbol? at n.symbol?, m.symbol?
        · rfl
        · rename_i a b h
          simp only [Option.bind_some, h.value]
      rw [hname]
      cases m.symbol?.bind (fun a => macroName? a.value) with
      | some name => exact hr.invoke (.list _ _ _ _ _ _ _ _ (.cons _ _ _ _ h1 h2) hs hw hes hbl) h2.trimFirst
      | none =>
        exact Sim.bind (expandNodes_sim hr (.cons _ _ _ _ h1 h2)) fun _ _ h => .pure (.one (.list _ _ _ _ _ _ _ _ h hs hw hes hbl))

/-- The expander with `%lambda` cut out agrees with the expander. -/
theorem namedRun_sim {ext : Ext} (hW : ∀ w v, W w v → w = v) (hrefl : ∀ s, S s s) : ∀ fuel, SimRec S W (namedRun ext fuel) (run ext fuel)
  | 0, _, _, _ => .lift trivial
  | fuel + 1, c, c', h => by
    have ih : SimRec S W (namedRun ext fuel) (run ext fuel) := namedRun_sim hW hrefl fuel
    cases h with
    | node n m h => exact expandNode_sim ih h
    | invoke name call call' ps qs hc hp =>
      simp only [namedRun]
      by_cases hl : builtin? name = some .lambda
      · rw [if_pos hl]
        intro s t hn
        exact ⟨trivial, fun h => absurd rfl h⟩
      · rw [if_neg hl]
        show Sim S W (Laids S W) (expandInvocation ext _ name call ps) (expandInvocation ext _ name call' qs)
        unfold expandInvocation
        cases hb : builtin? name with
        | none => exact userMacro_sim ih hc hp
        | some b =>
          refine runBuiltin_sim hrefl ih hc hp (fun h => ?_) fun _ => hW
          subst h
          exact absurd hb hl
/-- The expander without the macros that look at the layout agrees with the expander. -/
theorem blindRun_sim {ext : Ext} (hrefl : ∀ s, S s s) : ∀ fuel, SimRec S W (blindRun ext fuel) (run ext fuel)
  | 0, _, _, _ => .lift trivial
  | fuel + 1, c, c', h => by
    have ih : SimRec S W (blindRun ext fuel) (run ext fuel) := blindRun_sim hrefl fuel
    cases h with
    | node n m h => exact expandNode_sim ih h
    | invoke name call call' ps qs hc hp =>
      simp only [blindRun]
      show Sim S W (Laids S W) _ (expandInvocation ext _ name call' qs)
      cases hb : builtin? name with
      | none =>
        show Sim S W (Laids S W) (expandInvocation ext _ name call ps) (expandInvocation ext _ name call' qs)
        unfold expandInvocation
        rw [hb]
        exact userMacro_sim ih hc hp
      | some b =>
        dsimp only
        split
        · intro s t hn
          exact ⟨trivial, fun h => absurd rfl h⟩
        · rename_i hl
          show Sim S W (Laids S W) (expandInvocation ext _ name call ps) (expandInvocation ext _ name call' qs)
          unfold expandInvocation
          rw [hb]
          exact runBuiltin_sim hrefl ih hc hp (fun h => absurd (by rw [h]; rfl) hl) fun h => absurd h hl
/-- The expander, if names of `%lambda` do not depend on the position. -/
theorem run_sim (hW : ∀ w v, W w v → w = v) (hrefl : ∀ s, S s s) (hu : ∀ s t, S s t → ext.uuid s = ext.uuid t) : ∀ fuel, SimRec S W (run ext fuel) (run ext fuel)
  | 0, _, _, _ => .lift trivial
  | fuel + 1, c, c', h => by
    have ih := run_sim hW hrefl hu fuel
    cases h with
    | node n m h => exact expandNode_sim ih h
    | invoke name call call' ps qs hc hp =>
      show Sim S W (Laids S W) (expandInvocation ext _ name call ps) (expandInvocation ext _ name call' qs)
      unfold expandInvocation
      cases hb : builtin? name with
      | none => exact userMacro_sim ih hc hp
      | some b => exact runBuiltin_sim hrefl ih hc hp (fun _ => hu _ _ hc.site) fun _ => hW

end
end Seam
