import Verif.Proof.Cache

/-!
Concrete executions of the page cache: `exec` performs one step, if it is possible.
-/
namespace Splinter.Cache

inductive Act where
  | acquire (b : Nat)
  | release (b : Nat)
  | give (b : Nat) (i : Nat)
  | get (a : Nat)
  | gHit (a : Nat) (e : Nat)
  | gMiss (a : Nat) (m : Mode)
  | rTest (p : Pur) (e : Nat)
  | rConf (p : Pur) (e : Nat)
  | rInc (p : Pur) (e : Nat)
  | rFree (p : Pur) (e : Nat)
  | rPass (p : Pur) (e : Nat)
  | rFail (p : Pur) (e : Nat) (f : Bool)
  | rDec (e : Nat)
  | gAddr (a : Nat) (e : Nat)
  | gOther (a : Nat) (e : Nat)
  | gLoaded (a : Nat) (e : Nat)
  | gBusy (a : Nat) (e : Nat)
  | unget (a : Nat) (e : Nat)
  | claim (a : Nat) (e : Nat)
  | unclaim (a : Nat) (e : Nat)
  | lock (a : Nat) (e : Nat)
  | write (a : Nat) (e : Nat) (m : Bool) (v : Nat)
  | mark (a : Nat) (e : Nat) (m : Bool)
  | unlock (a : Nat) (e : Nat) (m : Bool)
  | wSet (p : Pur) (e : Nat)
  | wWb (p : Pur) (e : Nat)
  | wWbX (e : Nat)
  | wRef (p : Pur) (e : Nat) (k : Nat)
  | wRefX (e : Nat) (k : Nat)
  | wDone (p : Pur) (e : Nat) (k : Nat)
  | evict (e : Nat)
  | eClaim (e : Nat)
  | eConf (e : Nat)
  | eLoad (e : Nat)
  | eLoadX (e : Nat)
  | eStat (e : Nat) (a : Nat)
  | eStat0 (e : Nat)
  | eStatX (e : Nat)
  | eLk (e : Nat) (a : Nat)
  | eAd (e : Nat) (a : Nat)
  | eFr (e : Nat)
  | xW (e : Nat)
  | xC (e : Nat)
  | disc (a : Nat)
  | dHit (a : Nat) (e : Nat)
  | dMiss (a : Nat)
  | dLoad (a : Nat) (e : Nat)
  | dAddr (a : Nat) (e : Nat)
  | dOther (a : Nat) (e : Nat)
  | dClaim (a : Nat) (e : Nat)
  | dConf (a : Nat) (e : Nat)
  | dLk (a : Nat) (e : Nat)
  | dAd (a : Nat) (e : Nat)
  | dFr (a : Nat) (e : Nat)
  | new (a : Nat)
  | take (m : Mode) (a : Nat) (e : Nat)
  | full (m : Mode) (a : Nat)
  | aInc (m : Mode) (a : Nat) (e : Nat)
  | aIncP (a : Nat) (e : Nat)
  | aStat (m : Mode) (a : Nat) (e : Nat)
  | gCas (a : Nat) (e : Nat)
  | gCasX (a : Nat) (e : Nat)
  | gCasY (a : Nat) (e : Nat)
  | gAb1 (a : Nat) (e : Nat)
  | gAb2 (a : Nat) (e : Nat)
  | gAb3 (a : Nat) (e : Nat)
  | gSet (a : Nat) (e : Nat)
  | gReq (a : Nat) (e : Nat)
  | gRead (a : Nat) (e : Nat)
  | gClr (a : Nat) (e : Nat)
  | noReq (a : Nat) (e : Nat)
  | nA1 (a : Nat) (e : Nat)
  | nA2 (a : Nat) (e : Nat)
  | nA3 (a : Nat) (e : Nat)
  | pSet (a : Nat) (e : Nat)
  | pCas (a : Nat) (e : Nat)
  | pCasX (a : Nat) (e : Nat)
  | pAb1 (a : Nat) (e : Nat)
  | pAb2 (a : Nat) (e : Nat)
  | pRead (a : Nat) (e : Nat)
  | pClr (a : Nat) (e : Nat)
  | lSet (a : Nat) (e : Nat)
  | lLk (a : Nat) (e : Nat)
  | wb (e : Nat)
  | wbAd (e : Nat) (a : Nat)
  | wbAd0 (e : Nat)
  | wbIov (a : Nat) (e : Nat) (e2 : Nat)
  | wbIov0 (a : Nat) (e : Nat)
  | wbIo (a : Nat) (e : Nat)
  | wbCln (a : Nat) (e : Nat)
  | wbClr (a : Nat) (e : Nat)
  | sync (i : Nat) (a : Nat) (e : Nat)
  | near (a : Nat) (b : Bool)
  | nHit (a : Nat) (b : Bool) (e : Nat)
  | nMiss (a : Nat) (b : Bool)
  | nCas (a : Nat) (e : Nat) (b : Bool)
  | nCasX (a : Nat) (e : Nat) (b : Bool)

def exec (P : Par) (s : State) (t : Nat) : Act → Option State
  | .acquire b => if (bent (s.pc t) = none) ∧ (s.own b = none) then some { s with own := upd s.own b (some t) } else none
  | .release b => if (bent (s.pc t) = none) ∧ (s.own b = some t) then some { s with own := upd s.own b none } else none
  | .give b i => if (bent (s.pc t) = none) ∧ (s.own b = some t) ∧ (i < P.n) then some { s with own := upd s.own b (some i) } else none
  | .get a => if (s.pc t = .idle) ∧ ((∀ j, j < P.n → xcl (s.pc j) ≠ some a)) then some { s with pc := upd s.pc t (.gLook a) } else none
  | .gHit a e => if (s.pc t = .gLook a) ∧ (s.look a = some e) then some { s with pc := upd s.pc t (.rTest (.get a) e) } else none
  | .gMiss a m => if (s.pc t = .gLook a) ∧ (s.look a = none) ∧ (m ≠ .new) then some { s with pc := upd s.pc t (.want m a) } else none
  | .rTest p e => if (s.pc t = .rTest p e) ∧ ((s.ent e).wl = false) then some { s with pc := upd s.pc t (.rInc p e) } else none
  | .rConf p e => if (s.pc t = .rTest p e) ∧ ((s.ent e).wl = true) then some { s with pc := upd s.pc t .idle } else none
  | .rInc p e => if (s.pc t = .rInc p e) then some { s with pc := upd s.pc t (.rFree p e), cnt := upd s.cnt e (upd (s.cnt e) (P.slot t) (s.cnt e (P.slot t) + 1)) } else none
  | .rFree p e => if (s.pc t = .rFree p e) then some { s with pc := upd s.pc t (.rW p e (s.ent e).free) } else none
  | .rPass p e => if (s.pc t = .rW p e false) ∧ ((s.ent e).wl = false) then some { s with pc := upd s.pc t (passed p e) } else none
  | .rFail p e f => if (s.pc t = .rW p e f) ∧ (f = true ∨ (s.ent e).wl = true) then some { s with pc := upd s.pc t (.rDec e) } else none
  | .rDec e => if (s.pc t = .rDec e) then some { s with pc := upd s.pc t .idle, cnt := upd s.cnt e (upd (s.cnt e) (P.slot t) (s.cnt e (P.slot t) - 1)) } else none
  | .gAddr a e => if (s.pc t = .gAddr a e) ∧ ((s.ent e).addr = some a) then some { s with pc := upd s.pc t (.gLoad a e) } else none
  | .gOther a e => if (s.pc t = .gAddr a e) then some { s with pc := upd s.pc t (.rDec e) } else none
  | .gLoaded a e => if (s.pc t = .gLoad a e) ∧ ((s.ent e).loading = false) then some { s with pc := upd s.pc t (.rd a e) } else none
  | .gBusy a e => if (s.pc t = .gLoad a e) ∧ ((s.ent e).loading = true) then some { s with pc := upd s.pc t (.rDec e) } else none
  | .unget a e => if (s.pc t = .rd a e) then some { s with pc := upd s.pc t (.rDec e) } else none
  | .claim a e => if (s.pc t = .rd a e) ∧ ((s.ent e).cm = false) then some { s with pc := upd s.pc t (.cl a e), ent := upd s.ent e { s.ent e with cm := true } } else none
  | .unclaim a e => if (s.pc t = .cl a e) then some { s with pc := upd s.pc t (.rd a e), ent := upd s.ent e { s.ent e with cm := false } } else none
  | .lock a e => if (s.pc t = .cl a e) then some { s with pc := upd s.pc t (.wSet (.get a) e) } else none
  | .write a e m v => if (s.pc t = .wr a e m) then some { s with pc := upd s.pc t (.wr a e true), ent := upd s.ent e { s.ent e with data := v }, cur := upd s.cur a v } else none
  | .mark a e m => if (s.pc t = .wr a e m) then some { s with ent := upd s.ent e { s.ent e with clean := false } } else none
  | .unlock a e m => if (s.pc t = .wr a e m) ∧ ((m = true → (s.ent e).clean = false)) then some { s with pc := upd s.pc t (.cl a e), ent := upd s.ent e { s.ent e with wl := false } } else none
  | .wSet p e => if (s.pc t = .wSet p e) then some { s with pc := upd s.pc t (.wWb p e), ent := upd s.ent e { s.ent e with wl := true } } else none
  | .wWb p e => if (s.pc t = .wWb p e) ∧ ((s.ent e).wb = false) then some { s with pc := upd s.pc t (.wRef p e 0) } else none
  | .wWbX e => if (s.pc t = .wWb .evict e) ∧ ((s.ent e).wb = true) then some { s with pc := upd s.pc t (.xW e) } else none
  | .wRef p e k => if (s.pc t = .wRef p e k) ∧ (k < 4) ∧ (s.cnt e k ≤ (if k = P.slot t then 1 else 0)) then some { s with pc := upd s.pc t (.wRef p e (k + 1)) } else none
  | .wRefX e k => if (s.pc t = .wRef .evict e k) ∧ (k < 4) ∧ ((if k = P.slot t then 1 else 0) < s.cnt e k) then some { s with pc := upd s.pc t (.xW e) } else none
  | .wDone p e k => if (s.pc t = .wRef p e k) ∧ (4 ≤ k) then some { s with pc := upd s.pc t (locked p e) } else none
  | .evict e => if (s.pc t = .idle) ∧ (s.own (P.bat e) = some t) then some { s with pc := upd s.pc t (.rTest .evict e) } else none
  | .eClaim e => if (s.pc t = .eClaim e) ∧ ((s.ent e).cm = false) then some { s with pc := upd s.pc t (.eLoad e), ent := upd s.ent e { s.ent e with cm := true } } else none
  | .eConf e => if (s.pc t = .eClaim e) ∧ ((s.ent e).cm = true) then some { s with pc := upd s.pc t (.rDec e) } else none
  | .eLoad e => if (s.pc t = .eLoad e) ∧ ((s.ent e).loading = false) then some { s with pc := upd s.pc t (.wSet .evict e) } else none
  | .eLoadX e => if (s.pc t = .eLoad e) ∧ ((s.ent e).loading = true) then some { s with pc := upd s.pc t (.xC e) } else none
  | .eStat e a => if (s.pc t = .eStat e) ∧ ((s.ent e).isEvictable = true) ∧ ((s.ent e).addr = some a) then some { s with pc := upd s.pc t (.eLk e a) } else none
  | .eStat0 e => if (s.pc t = .eStat e) ∧ ((s.ent e).isEvictable = true) ∧ ((s.ent e).addr = none) then some { s with pc := upd s.pc t (.eFr e) } else none
  | .eStatX e => if (s.pc t = .eStat e) then some { s with pc := upd s.pc t (.xW e) } else none
  | .eLk e a => if (s.pc t = .eLk e a) then some { s with pc := upd s.pc t (.eAd e a), look := upd s.look a none } else none
  | .eAd e a => if (s.pc t = .eAd e a) then some { s with pc := upd s.pc t (.eFr e), ent := upd s.ent e { s.ent e with addr := none } } else none
  | .eFr e => if (s.pc t = .eFr e) then some { s with pc := upd s.pc t (.rDec e), ent := upd s.ent e (s.ent e).setFree } else none
  | .xW e => if (s.pc t = .xW e) then some { s with pc := upd s.pc t (.xC e), ent := upd s.ent e { s.ent e with wl := false } } else none
  | .xC e => if (s.pc t = .xC e) then some { s with pc := upd s.pc t (.rDec e), ent := upd s.ent e { s.ent e with cm := false } } else none
  | .disc a => if (s.pc t = .idle) ∧ ((∀ j, j < P.n → tgt (s.pc j) ≠ some a)) then some { s with pc := upd s.pc t (.dLook a) } else none
  | .dHit a e => if (s.pc t = .dLook a) ∧ (s.look a = some e) then some { s with pc := upd s.pc t (.rTest (.disc a) e) } else none
  | .dMiss a => if (s.pc t = .dLook a) ∧ (s.look a = none) then some { s with pc := upd s.pc t .idle } else none
  | .dLoad a e => if (s.pc t = .dLoad a e) ∧ ((s.ent e).loading = false) then some { s with pc := upd s.pc t (.dAddr a e) } else none
  | .dAddr a e => if (s.pc t = .dAddr a e) ∧ ((s.ent e).addr = some a) then some { s with pc := upd s.pc t (.dClaim a e) } else none
  | .dOther a e => if (s.pc t = .dAddr a e) ∧ ((s.ent e).addr ≠ some a) then some { s with pc := upd s.pc t (.rDec e) } else none
  | .dClaim a e => if (s.pc t = .dClaim a e) ∧ ((s.ent e).cm = false) then some { s with pc := upd s.pc t (.wSet (.disc a) e), ent := upd s.ent e { s.ent e with cm := true } } else none
  | .dConf a e => if (s.pc t = .dClaim a e) ∧ ((s.ent e).cm = true) then some { s with pc := upd s.pc t (.rDec e) } else none
  | .dLk a e => if (s.pc t = .dLk a e) then some { s with pc := upd s.pc t (.dAd a e), look := upd s.look a none, cur := upd s.cur a (s.disk a) } else none
  | .dAd a e => if (s.pc t = .dAd a e) then some { s with pc := upd s.pc t (.dFr a e), ent := upd s.ent e { s.ent e with addr := none } } else none
  | .dFr a e => if (s.pc t = .dFr a e) then some { s with pc := upd s.pc t (.rDec e), ent := upd s.ent e (s.ent e).setFree } else none
  | .new a => if (s.pc t = .idle) ∧ ((∀ j, j < P.n → tgt (s.pc j) ≠ some a)) ∧ (s.look a = none) then some { s with pc := upd s.pc t (.want .new a) } else none
  | .take m a e => if (s.pc t = .want m a) ∧ (s.own (P.bat e) = some t) ∧ ((s.ent e).isFree = true) then some { s with pc := upd s.pc t (.aInc m a e), ent := upd s.ent e (s.ent e).setAlloc } else none
  | .full m a => if (s.pc t = .want m a) ∧ (m ≠ .new) then some { s with pc := upd s.pc t .idle } else none
  | .aInc m a e => if (s.pc t = .aInc m a e) ∧ (m ≠ .pre) then some { s with pc := upd s.pc t (.aStat m a e), cnt := upd s.cnt e (upd (s.cnt e) (P.slot t) (s.cnt e (P.slot t) + 1)) } else none
  | .aIncP a e => if (s.pc t = .aInc .pre a e) then some { s with pc := upd s.pc t (.aStat .pre a e) } else none
  | .aStat m a e => if (s.pc t = .aStat m a e) then some { s with pc := upd s.pc t (gotFree m a e), ent := upd s.ent e (if m = .new then (s.ent e).setAlloc else (s.ent e).setLoading) } else none
  | .gCas a e => if (s.pc t = .gCas a e) ∧ (s.look a = none) then some { s with pc := upd s.pc t (.gSet a e), look := upd s.look a (some e) } else none
  | .gCasX a e => if (s.pc t = .gCas a e) ∧ (s.look a ≠ none) then some { s with pc := upd s.pc t (.gAb1 a e) } else none
  | .gCasY a e => if (s.pc t = .gCas a e) ∧ (s.look a ≠ none) then some { s with pc := upd s.pc t (.gAb3 a e) } else none
  | .gAb1 a e => if (s.pc t = .gAb1 a e) then some { s with pc := upd s.pc t (.gAb2 a e), cnt := upd s.cnt e (upd (s.cnt e) (P.slot t) (s.cnt e (P.slot t) - 1)) } else none
  | .gAb2 a e => if (s.pc t = .gAb2 a e) then some { s with pc := upd s.pc t .idle, ent := upd s.ent e (s.ent e).setFree } else none
  | .gAb3 a e => if (s.pc t = .gAb3 a e) then some { s with pc := upd s.pc t (.rDec e), ent := upd s.ent e (s.ent e).setFree } else none
  | .gSet a e => if (s.pc t = .gSet a e) then some { s with pc := upd s.pc t (.gReq a e), ent := upd s.ent e { s.ent e with addr := some a } } else none
  | .gReq a e => if (s.pc t = .gReq a e) then some { s with pc := upd s.pc t (.gRead a e) } else none
  | .gRead a e => if (s.pc t = .gRead a e) then some { s with pc := upd s.pc t (.gClr a e), ent := upd s.ent e { s.ent e with data := s.disk a } } else none
  | .gClr a e => if (s.pc t = .gClr a e) then some { s with pc := upd s.pc t (.rd a e), ent := upd s.ent e { s.ent e with loading := false } } else none
  | .noReq a e => if (s.pc t = .gReq a e) then some { s with pc := upd s.pc t (.nA1 a e) } else none
  | .nA1 a e => if (s.pc t = .nA1 a e) then some { s with pc := upd s.pc t (.nA2 a e), look := upd s.look a none } else none
  | .nA2 a e => if (s.pc t = .nA2 a e) then some { s with pc := upd s.pc t (.nA3 a e), ent := upd s.ent e { s.ent e with addr := none } } else none
  | .nA3 a e => if (s.pc t = .nA3 a e) ∧ (P.ok = false) then some { s with pc := upd s.pc t (.rDec e), ent := upd s.ent e (s.ent e).setFree } else none
  | .pSet a e => if (s.pc t = .pSet a e) then some { s with pc := upd s.pc t (.pCas a e), ent := upd s.ent e { s.ent e with addr := some a } } else none
  | .pCas a e => if (s.pc t = .pCas a e) ∧ (s.look a = none) then some { s with pc := upd s.pc t (.pRead a e), look := upd s.look a (some e) } else none
  | .pCasX a e => if (s.pc t = .pCas a e) ∧ (s.look a ≠ none) then some { s with pc := upd s.pc t (.pAb1 a e) } else none
  | .pAb1 a e => if (s.pc t = .pAb1 a e) then some { s with pc := upd s.pc t (.pAb2 a e), ent := upd s.ent e { s.ent e with addr := none } } else none
  | .pAb2 a e => if (s.pc t = .pAb2 a e) ∧ (P.ok = false) then some { s with pc := upd s.pc t .idle, ent := upd s.ent e (s.ent e).setFree } else none
  | .pRead a e => if (s.pc t = .pRead a e) then some { s with pc := upd s.pc t (.pClr a e), ent := upd s.ent e { s.ent e with data := s.disk a } } else none
  | .pClr a e => if (s.pc t = .pClr a e) then some { s with pc := upd s.pc t .idle, ent := upd s.ent e { s.ent e with loading := false } } else none
  | .lSet a e => if (s.pc t = .lSet a e) then some { s with pc := upd s.pc t (.lLk a e), ent := upd s.ent e { s.ent e with addr := some a } } else none
  | .lLk a e => if (s.pc t = .lLk a e) then some { s with pc := upd s.pc t (.wr a e false), look := upd s.look a (some e), cur := upd s.cur a (s.ent e).data } else none
  | .wb e => if (s.pc t = .idle) ∧ ((s.ent e).isDirty = true) then some { s with pc := upd s.pc t (.wbAd e), ent := upd s.ent e { s.ent e with wb := true } } else none
  | .wbAd e a => if (s.pc t = .wbAd e) ∧ ((s.ent e).addr = some a) then some { s with pc := upd s.pc t (.wbIov a e) } else none
  | .wbAd0 e => if (s.pc t = .wbAd e) ∧ ((s.ent e).addr = none) then some { s with pc := upd s.pc t .crash } else none
  | .wbIov a e e2 => if (s.pc t = .wbIov a e) ∧ (s.look a = some e2) then some { s with pc := upd s.pc t (.wbIo a e2) } else none
  | .wbIov0 a e => if (s.pc t = .wbIov a e) ∧ (s.look a = none) then some { s with pc := upd s.pc t .crash } else none
  | .wbIo a e => if (s.pc t = .wbIo a e) then some { s with pc := upd s.pc t (.wbCln a e), disk := upd s.disk a (s.ent e).data } else none
  | .wbCln a e => if (s.pc t = .wbCln a e) then some { s with pc := upd s.pc t (.wbClr a e), ent := upd s.ent e { s.ent e with clean := true } } else none
  | .wbClr a e => if (s.pc t = .wbClr a e) then some { s with pc := upd s.pc t .idle, ent := upd s.ent e { s.ent e with wb := false } } else none
  | .sync i a e => if (s.pc t = .idle) ∧ (s.pc i = .rd a e) ∧ ((s.ent e).isDirty = true) then some { s with pc := upd s.pc t (.wbIo a e), ent := upd s.ent e { s.ent e with wb := true } } else none
  | .near a b => if (s.pc t = .idle) then some { s with pc := upd s.pc t (.nLook a b) } else none
  | .nHit a b e => if (s.pc t = .nLook a b) ∧ (s.look a = some e) then some { s with pc := upd s.pc t (.nCas a e b) } else none
  | .nMiss a b => if (s.pc t = .nLook a b) ∧ (s.look a = none) then some { s with pc := upd s.pc t .idle } else none
  | .nCas a e b => if (s.pc t = .nCas a e b) ∧ ((s.ent e).isDirty = true) ∧ ((s.ent e).addr = some a ∨ P.ok = false) then some { s with pc := upd s.pc t (if b then .wbIov a e else .wbIo a e), ent := upd s.ent e { s.ent e with wb := true } } else none
  | .nCasX a e b => if (s.pc t = .nCas a e b) ∧ ((s.ent e).isDirty = false) then some { s with pc := upd s.pc t .idle } else none

theorem exec_step {P : Par} {s s' : State} {t : Nat} {x : Act} (h : exec P s t x = some s') : Step P s t s' := by
  cases x with
  | acquire b =>
    simp only [exec, Option.ite_none_right_eq_some, Option.some.injEq] at h
    obtain ⟨⟨h0, h1⟩, rfl⟩ := h
    exact .acquire _ h0 h1
  | release b =>
    simp only [exec, Option.ite_none_right_eq_some, Option.some.injEq] at h
    obtain ⟨⟨h0, h1⟩, rfl⟩ := h
    exact .release _ h0 h1
  | give b i =>
    simp only [exec, Option.ite_none_right_eq_some, Option.some.injEq] at h
    obtain ⟨⟨h0, h1, h2⟩, rfl⟩ := h
    exact .give _ _ h0 h1 h2
  | get a =>
    simp only [exec, Option.ite_none_right_eq_some, Option.some.injEq] at h
    obtain ⟨⟨h0, h1⟩, rfl⟩ := h
    exact .get _ h0 h1
  | gHit a e =>
    simp only [exec, Option.ite_none_right_eq_some, Option.some.injEq] at h
    obtain ⟨⟨h0, h1⟩, rfl⟩ := h
    exact .gHit _ _ h0 h1
  | gMiss a m =>
    simp only [exec, Option.ite_none_right_eq_some, Option.some.injEq] at h
    obtain ⟨⟨h0, h1, h2⟩, rfl⟩ := h
    exact .gMiss _ _ h0 h1 h2
  | rTest p e =>
    simp only [exec, Option.ite_none_right_eq_some, Option.some.injEq] at h
    obtain ⟨⟨h0, h1⟩, rfl⟩ := h
    exact .rTest _ _ h0 h1
  | rConf p e =>
    simp only [exec, Option.ite_none_right_eq_some, Option.some.injEq] at h
    obtain ⟨⟨h0, h1⟩, rfl⟩ := h
    exact .rConf _ _ h0 h1
  | rInc p e =>
    simp only [exec, Option.ite_none_right_eq_some, Option.some.injEq] at h
    obtain ⟨h0, rfl⟩ := h
    exact .rInc _ _ h0
  | rFree p e =>
    simp only [exec, Option.ite_none_right_eq_some, Option.some.injEq] at h
    obtain ⟨h0, rfl⟩ := h
    exact .rFree _ _ h0
  | rPass p e =>
    simp only [exec, Option.ite_none_right_eq_some, Option.some.injEq] at h
    obtain ⟨⟨h0, h1⟩, rfl⟩ := h
    exact .rPass _ _ h0 h1
  | rFail p e f =>
    simp only [exec, Option.ite_none_right_eq_some, Option.some.injEq] at h
    obtain ⟨⟨h0, h1⟩, rfl⟩ := h
    exact .rFail _ _ _ h0 h1
  | rDec e =>
    simp only [exec, Option.ite_none_right_eq_some, Option.some.injEq] at h
    obtain ⟨h0, rfl⟩ := h
    exact .rDec _ h0
  | gAddr a e =>
    simp only [exec, Option.ite_none_right_eq_some, Option.some.injEq] at h
    obtain ⟨⟨h0, h1⟩, rfl⟩ := h
    exact .gAddr _ _ h0 h1
  | gOther a e =>
    simp only [exec, Option.ite_none_right_eq_some, Option.some.injEq] at h
    obtain ⟨h0, rfl⟩ := h
    exact .gOther _ _ h0
  | gLoaded a e =>
    simp only [exec, Option.ite_none_right_eq_some, Option.some.injEq] at h
    obtain ⟨⟨h0, h1⟩, rfl⟩ := h
    exact .gLoaded _ _ h0 h1
  | gBusy a e =>
    simp only [exec, Option.ite_none_right_eq_some, Option.some.injEq] at h
    obtain ⟨⟨h0, h1⟩, rfl⟩ := h
    exact .gBusy _ _ h0 h1
  | unget a e =>
    simp only [exec, Option.ite_none_right_eq_some, Option.some.injEq] at h
    obtain ⟨h0, rfl⟩ := h
    exact .unget _ _ h0
  | claim a e =>
    simp only [exec, Option.ite_none_right_eq_some, Option.some.injEq] at h
    obtain ⟨⟨h0, h1⟩, rfl⟩ := h
    exact .claim _ _ h0 h1
  | unclaim a e =>
    simp only [exec, Option.ite_none_right_eq_some, Option.some.injEq] at h
    obtain ⟨h0, rfl⟩ := h
    exact .unclaim _ _ h0
  | lock a e =>
    simp only [exec, Option.ite_none_right_eq_some, Option.some.injEq] at h
    obtain ⟨h0, rfl⟩ := h
    exact .lock _ _ h0
  | write a e m v =>
    simp only [exec, Option.ite_none_right_eq_some, Option.some.injEq] at h
    obtain ⟨h0, rfl⟩ := h
    exact .write _ _ _ _ h0
  | mark a e m =>
    simp only [exec, Option.ite_none_right_eq_some, Option.some.injEq] at h
    obtain ⟨h0, rfl⟩ := h
    exact .mark _ _ _ h0
  | unlock a e m =>
    simp only [exec, Option.ite_none_right_eq_some, Option.some.injEq] at h
    obtain ⟨⟨h0, h1⟩, rfl⟩ := h
    exact .unlock _ _ _ h0 h1
  | wSet p e =>
    simp only [exec, Option.ite_none_right_eq_some, Option.some.injEq] at h
    obtain ⟨h0, rfl⟩ := h
    exact .wSet _ _ h0
  | wWb p e =>
    simp only [exec, Option.ite_none_right_eq_some, Option.some.injEq] at h
    obtain ⟨⟨h0, h1⟩, rfl⟩ := h
    exact .wWb _ _ h0 h1
  | wWbX e =>
    simp only [exec, Option.ite_none_right_eq_some, Option.some.injEq] at h
    obtain ⟨⟨h0, h1⟩, rfl⟩ := h
    exact .wWbX _ h0 h1
  | wRef p e k =>
    simp only [exec, Option.ite_none_right_eq_some, Option.some.injEq] at h
    obtain ⟨⟨h0, h1, h2⟩, rfl⟩ := h
    exact .wRef _ _ _ h0 h1 h2
  | wRefX e k =>
    simp only [exec, Option.ite_none_right_eq_some, Option.some.injEq] at h
    obtain ⟨⟨h0, h1, h2⟩, rfl⟩ := h
    exact .wRefX _ _ h0 h1 h2
  | wDone p e k =>
    simp only [exec, Option.ite_none_right_eq_some, Option.some.injEq] at h
    obtain ⟨⟨h0, h1⟩, rfl⟩ := h
    exact .wDone _ _ _ h0 h1
  | evict e =>
    simp only [exec, Option.ite_none_right_eq_some, Option.some.injEq] at h
    obtain ⟨⟨h0, h1⟩, rfl⟩ := h
    exact .evict _ h0 h1
  | eClaim e =>
    simp only [exec, Option.ite_none_right_eq_some, Option.some.injEq] at h
    obtain ⟨⟨h0, h1⟩, rfl⟩ := h
    exact .eClaim _ h0 h1
  | eConf e =>
    simp only [exec, Option.ite_none_right_eq_some, Option.some.injEq] at h
    obtain ⟨⟨h0, h1⟩, rfl⟩ := h
    exact .eConf _ h0 h1
  | eLoad e =>
    simp only [exec, Option.ite_none_right_eq_some, Option.some.injEq] at h
    obtain ⟨⟨h0, h1⟩, rfl⟩ := h
    exact .eLoad _ h0 h1
  | eLoadX e =>
    simp only [exec, Option.ite_none_right_eq_some, Option.some.injEq] at h
    obtain ⟨⟨h0, h1⟩, rfl⟩ := h
    exact .eLoadX _ h0 h1
  | eStat e a =>
    simp only [exec, Option.ite_none_right_eq_some, Option.some.injEq] at h
    obtain ⟨⟨h0, h1, h2⟩, rfl⟩ := h
    exact .eStat _ _ h0 h1 h2
  | eStat0 e =>
    simp only [exec, Option.ite_none_right_eq_some, Option.some.injEq] at h
    obtain ⟨⟨h0, h1, h2⟩, rfl⟩ := h
    exact .eStat0 _ h0 h1 h2
  | eStatX e =>
    simp only [exec, Option.ite_none_right_eq_some, Option.some.injEq] at h
    obtain ⟨h0, rfl⟩ := h
    exact .eStatX _ h0
  | eLk e a =>
    simp only [exec, Option.ite_none_right_eq_some, Option.some.injEq] at h
    obtain ⟨h0, rfl⟩ := h
    exact .eLk _ _ h0
  | eAd e a =>
    simp only [exec, Option.ite_none_right_eq_some, Option.some.injEq] at h
    obtain ⟨h0, rfl⟩ := h
    exact .eAd _ _ h0
  | eFr e =>
    simp only [exec, Option.ite_none_right_eq_some, Option.some.injEq] at h
    obtain ⟨h0, rfl⟩ := h
    exact .eFr _ h0
  | xW e =>
    simp only [exec, Option.ite_none_right_eq_some, Option.some.injEq] at h
    obtain ⟨h0, rfl⟩ := h
    exact .xW _ h0
  | xC e =>
    simp only [exec, Option.ite_none_right_eq_some, Option.some.injEq] at h
    obtain ⟨h0, rfl⟩ := h
    exact .xC _ h0
  | disc a =>
    simp only [exec, Option.ite_none_right_eq_some, Option.some.injEq] at h
    obtain ⟨⟨h0, h1⟩, rfl⟩ := h
    exact .disc _ h0 h1
  | dHit a e =>
    simp only [exec, Option.ite_none_right_eq_some, Option.some.injEq] at h
    obtain ⟨⟨h0, h1⟩, rfl⟩ := h
    exact .dHit _ _ h0 h1
  | dMiss a =>
    simp only [exec, Option.ite_none_right_eq_some, Option.some.injEq] at h
    obtain ⟨⟨h0, h1⟩, rfl⟩ := h
    exact .dMiss _ h0 h1
  | dLoad a e =>
    simp only [exec, Option.ite_none_right_eq_some, Option.some.injEq] at h
    obtain ⟨⟨h0, h1⟩, rfl⟩ := h
    exact .dLoad _ _ h0 h1
  | dAddr a e =>
    simp only [exec, Option.ite_none_right_eq_some, Option.some.injEq] at h
    obtain ⟨⟨h0, h1⟩, rfl⟩ := h
    exact .dAddr _ _ h0 h1
  | dOther a e =>
    simp only [exec, Option.ite_none_right_eq_some, Option.some.injEq] at h
    obtain ⟨⟨h0, h1⟩, rfl⟩ := h
    exact .dOther _ _ h0 h1
  | dClaim a e =>
    simp only [exec, Option.ite_none_right_eq_some, Option.some.injEq] at h
    obtain ⟨⟨h0, h1⟩, rfl⟩ := h
    exact .dClaim _ _ h0 h1
  | dConf a e =>
    simp only [exec, Option.ite_none_right_eq_some, Option.some.injEq] at h
    obtain ⟨⟨h0, h1⟩, rfl⟩ := h
    exact .dConf _ _ h0 h1
  | dLk a e =>
    simp only [exec, Option.ite_none_right_eq_some, Option.some.injEq] at h
    obtain ⟨h0, rfl⟩ := h
    exact .dLk _ _ h0
  | dAd a e =>
    simp only [exec, Option.ite_none_right_eq_some, Option.some.injEq] at h
    obtain ⟨h0, rfl⟩ := h
    exact .dAd _ _ h0
  | dFr a e =>
    simp only [exec, Option.ite_none_right_eq_some, Option.some.injEq] at h
    obtain ⟨h0, rfl⟩ := h
    exact .dFr _ _ h0
  | new a =>
    simp only [exec, Option.ite_none_right_eq_some, Option.some.injEq] at h
    obtain ⟨⟨h0, h1, h2⟩, rfl⟩ := h
    exact .new _ h0 h1 h2
  | take m a e =>
    simp only [exec, Option.ite_none_right_eq_some, Option.some.injEq] at h
    obtain ⟨⟨h0, h1, h2⟩, rfl⟩ := h
    exact .take _ _ _ h0 h1 h2
  | full m a =>
    simp only [exec, Option.ite_none_right_eq_some, Option.some.injEq] at h
    obtain ⟨⟨h0, h1⟩, rfl⟩ := h
    exact .full _ _ h0 h1
  | aInc m a e =>
    simp only [exec, Option.ite_none_right_eq_some, Option.some.injEq] at h
    obtain ⟨⟨h0, h1⟩, rfl⟩ := h
    exact .aInc _ _ _ h0 h1
  | aIncP a e =>
    simp only [exec, Option.ite_none_right_eq_some, Option.some.injEq] at h
    obtain ⟨h0, rfl⟩ := h
    exact .aIncP _ _ h0
  | aStat m a e =>
    simp only [exec, Option.ite_none_right_eq_some, Option.some.injEq] at h
    obtain ⟨h0, rfl⟩ := h
    exact .aStat _ _ _ h0
  | gCas a e =>
    simp only [exec, Option.ite_none_right_eq_some, Option.some.injEq] at h
    obtain ⟨⟨h0, h1⟩, rfl⟩ := h
    exact .gCas _ _ h0 h1
  | gCasX a e =>
    simp only [exec, Option.ite_none_right_eq_some, Option.some.injEq] at h
    obtain ⟨⟨h0, h1⟩, rfl⟩ := h
    exact .gCasX _ _ h0 h1
  | gCasY a e =>
    simp only [exec, Option.ite_none_right_eq_some, Option.some.injEq] at h
    obtain ⟨⟨h0, h1⟩, rfl⟩ := h
    exact .gCasY _ _ h0 h1
  | gAb1 a e =>
    simp only [exec, Option.ite_none_right_eq_some, Option.some.injEq] at h
    obtain ⟨h0, rfl⟩ := h
    exact .gAb1 _ _ h0
  | gAb2 a e =>
    simp only [exec, Option.ite_none_right_eq_some, Option.some.injEq] at h
    obtain ⟨h0, rfl⟩ := h
    exact .gAb2 _ _ h0
  | gAb3 a e =>
    simp only [exec, Option.ite_none_right_eq_some, Option.some.injEq] at h
    obtain ⟨h0, rfl⟩ := h
    exact .gAb3 _ _ h0
  | gSet a e =>
    simp only [exec, Option.ite_none_right_eq_some, Option.some.injEq] at h
    obtain ⟨h0, rfl⟩ := h
    exact .gSet _ _ h0
  | gReq a e =>
    simp only [exec, Option.ite_none_right_eq_some, Option.some.injEq] at h
    obtain ⟨h0, rfl⟩ := h
    exact .gReq _ _ h0
  | gRead a e =>
    simp only [exec, Option.ite_none_right_eq_some, Option.some.injEq] at h
    obtain ⟨h0, rfl⟩ := h
    exact .gRead _ _ h0
  | gClr a e =>
    simp only [exec, Option.ite_none_right_eq_some, Option.some.injEq] at h
    obtain ⟨h0, rfl⟩ := h
    exact .gClr _ _ h0
  | noReq a e =>
    simp only [exec, Option.ite_none_right_eq_some, Option.some.injEq] at h
    obtain ⟨h0, rfl⟩ := h
    exact .noReq _ _ h0
  | nA1 a e =>
    simp only [exec, Option.ite_none_right_eq_some, Option.some.injEq] at h
    obtain ⟨h0, rfl⟩ := h
    exact .nA1 _ _ h0
  | nA2 a e =>
    simp only [exec, Option.ite_none_right_eq_some, Option.some.injEq] at h
    obtain ⟨h0, rfl⟩ := h
    exact .nA2 _ _ h0
  | nA3 a e =>
    simp only [exec, Option.ite_none_right_eq_some, Option.some.injEq] at h
    obtain ⟨⟨h0, h1⟩, rfl⟩ := h
    exact .nA3 _ _ h0 (fun c => by simp_all)
  | pSet a e =>
    simp only [exec, Option.ite_none_right_eq_some, Option.some.injEq] at h
    obtain ⟨h0, rfl⟩ := h
    exact .pSet _ _ h0
  | pCas a e =>
    simp only [exec, Option.ite_none_right_eq_some, Option.some.injEq] at h
    obtain ⟨⟨h0, h1⟩, rfl⟩ := h
    exact .pCas _ _ h0 h1
  | pCasX a e =>
    simp only [exec, Option.ite_none_right_eq_some, Option.some.injEq] at h
    obtain ⟨⟨h0, h1⟩, rfl⟩ := h
    exact .pCasX _ _ h0 h1
  | pAb1 a e =>
    simp only [exec, Option.ite_none_right_eq_some, Option.some.injEq] at h
    obtain ⟨h0, rfl⟩ := h
    exact .pAb1 _ _ h0
  | pAb2 a e =>
    simp only [exec, Option.ite_none_right_eq_some, Option.some.injEq] at h
    obtain ⟨⟨h0, h1⟩, rfl⟩ := h
    exact .pAb2 _ _ h0 (fun c => by simp_all)
  | pRead a e =>
    simp only [exec, Option.ite_none_right_eq_some, Option.some.injEq] at h
    obtain ⟨h0, rfl⟩ := h
    exact .pRead _ _ h0
  | pClr a e =>
    simp only [exec, Option.ite_none_right_eq_some, Option.some.injEq] at h
    obtain ⟨h0, rfl⟩ := h
    exact .pClr _ _ h0
  | lSet a e =>
    simp only [exec, Option.ite_none_right_eq_some, Option.some.injEq] at h
    obtain ⟨h0, rfl⟩ := h
    exact .lSet _ _ h0
  | lLk a e =>
    simp only [exec, Option.ite_none_right_eq_some, Option.some.injEq] at h
    obtain ⟨h0, rfl⟩ := h
    exact .lLk _ _ h0
  | wb e =>
    simp only [exec, Option.ite_none_right_eq_some, Option.some.injEq] at h
    obtain ⟨⟨h0, h1⟩, rfl⟩ := h
    exact .wb _ h0 h1
  | wbAd e a =>
    simp only [exec, Option.ite_none_right_eq_some, Option.some.injEq] at h
    obtain ⟨⟨h0, h1⟩, rfl⟩ := h
    exact .wbAd _ _ h0 h1
  | wbAd0 e =>
    simp only [exec, Option.ite_none_right_eq_some, Option.some.injEq] at h
    obtain ⟨⟨h0, h1⟩, rfl⟩ := h
    exact .wbAd0 _ h0 h1
  | wbIov a e e2 =>
    simp only [exec, Option.ite_none_right_eq_some, Option.some.injEq] at h
    obtain ⟨⟨h0, h1⟩, rfl⟩ := h
    exact .wbIov _ _ _ h0 h1
  | wbIov0 a e =>
    simp only [exec, Option.ite_none_right_eq_some, Option.some.injEq] at h
    obtain ⟨⟨h0, h1⟩, rfl⟩ := h
    exact .wbIov0 _ _ h0 h1
  | wbIo a e =>
    simp only [exec, Option.ite_none_right_eq_some, Option.some.injEq] at h
    obtain ⟨h0, rfl⟩ := h
    exact .wbIo _ _ h0
  | wbCln a e =>
    simp only [exec, Option.ite_none_right_eq_some, Option.some.injEq] at h
    obtain ⟨h0, rfl⟩ := h
    exact .wbCln _ _ h0
  | wbClr a e =>
    simp only [exec, Option.ite_none_right_eq_some, Option.some.injEq] at h
    obtain ⟨h0, rfl⟩ := h
    exact .wbClr _ _ h0
  | sync i a e =>
    simp only [exec, Option.ite_none_right_eq_some, Option.some.injEq] at h
    obtain ⟨⟨h0, h1, h2⟩, rfl⟩ := h
    exact .sync _ _ _ h0 h1 h2
  | near a b =>
    simp only [exec, Option.ite_none_right_eq_some, Option.some.injEq] at h
    obtain ⟨h0, rfl⟩ := h
    exact .near _ _ h0
  | nHit a b e =>
    simp only [exec, Option.ite_none_right_eq_some, Option.some.injEq] at h
    obtain ⟨⟨h0, h1⟩, rfl⟩ := h
    exact .nHit _ _ _ h0 h1
  | nMiss a b =>
    simp only [exec, Option.ite_none_right_eq_some, Option.some.injEq] at h
    obtain ⟨⟨h0, h1⟩, rfl⟩ := h
    exact .nMiss _ _ h0 h1
  | nCas a e b =>
    simp only [exec, Option.ite_none_right_eq_some, Option.some.injEq] at h
    obtain ⟨⟨h0, h1, h2⟩, rfl⟩ := h
    exact .nCas _ _ _ h0 h1 (fun c => by simp_all)
  | nCasX a e b =>
    simp only [exec, Option.ite_none_right_eq_some, Option.some.injEq] at h
    obtain ⟨⟨h0, h1⟩, rfl⟩ := h
    exact .nCasX _ _ _ h0 h1

def run (P : Par) : State → List (Nat × Act) → Option State
  | s, [] => some s
  | s, (t, x) :: l => if t < P.n then (exec P s t x).bind (fun s' => run P s' l) else none

theorem run_reachable {P : Par} {s s' : State} {l : List (Nat × Act)} (h : Reachable P s) (hr : run P s l = some s') :
    Reachable P s' := by
  induction l generalizing s with
  | nil => simp [run] at hr; exact hr ▸ h
  | cons x l ih =>
    obtain ⟨t, x⟩ := x
    simp only [run, Option.ite_none_right_eq_some, Option.bind_eq_some_iff] at hr
    obtain ⟨ht, s1, h1, h2⟩ := hr
    exact ih (.step h ht (exec_step h1)) h2

/-- The empty cache; every page of the device contains its own address plus 100. -/
def start : State where
  ent _ := { free := true, clean := false, wb := false, loading := false, wl := false, cm := false, addr := none, data := 0 }
  look _ := none
  disk a := a + 100
  cnt _ _ := 0
  own _ := none
  pc _ := .idle
  cur a := a + 100

theorem start_init : Init start := by
  refine ⟨fun e => ⟨rfl, rfl⟩, fun a => rfl, fun e k => rfl, fun b => rfl, fun i => rfl, fun a => rfl⟩

theorem run_witness {P : Par} {l : List (Nat × Act)} {C : State → Bool}
    (h : (run P start l).any C = true) : ∃ s, Reachable P s ∧ C s = true := by
  cases hr : run P start l with
  | none => simp [hr] at h
  | some s => rw [hr] at h; exact ⟨s, run_reachable (.init start_init) hr, h⟩

end Splinter.Cache
