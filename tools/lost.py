"""Correct `claims_lost` in seeded/LOG.jsonl.

mutate.py finds the theorems of the manifest that use a failing declaration by the names in
the sources, which takes different declarations of one name for each other.  This script
asks Lean for the constants each theorem depends on, and keeps in `claims_lost` only the
theorems that depend on a failing one.  Run it after `lake build`.  Entries with failing
declarations that are not in the present sources are left alone, with
`claims_lost_by_name` set.
"""
import json, subprocess

LOG = '/verif/seeded/LOG.jsonl'
OUTER = ['', 'Closed.', 'Plain.', 'Spec.']

LEAN = '''import Verif
open Lean
partial def clo (env : Environment) (n : Name) : StateM NameSet Unit := do
  if (← get).contains n then return
  unless (`Rustextile).isPrefixOf n || (`_private).isPrefixOf n do return
  modify (·.insert n)
  if let some c := env.find? n then
    for d in c.type.getUsedConstants do clo env d
    if let some v := c.value? (allowOpaque := true) then
      for d in v.getUsedConstants do clo env d
def plain (n : Name) : String := toString (privateToUserName n)
run_cmd do
  let env ← getEnv
  let targets := (← IO.FS.readFile "/tmp/lost_targets").splitOn "\\n"
  let claims := (← IO.FS.readFile "/tmp/lost_claims").splitOn "\\n"
  let mut known : Std.HashMap String (List Name) := {}
  for (n, c) in env.constants.map₁.toList do
    let s := plain n
    if targets.contains s then
      let k := match c with | .thmInfo _ => "theorem" | _ => "other"
      IO.println s!"HAVE {s} {k}"
      known := known.insert s (n :: known.getD s [])
  for c in claims do
    unless env.contains c.toName do IO.println s!"NOCLAIM {c}"
    let (_, s) := (clo env c.toName).run {}
    for (t, ns) in known.toList do
      if ns.any s.contains then IO.println s!"DEP {t} {c}"
'''

def full(n): return n if n.startswith('Rustextile.') else 'Rustextile.' + n

log = [json.loads(l) for l in open(LOG)]
claims = sorted({full(t) for c in json.load(open('/verif/MANIFEST.json'))['claims'] for t in c['theorems']})
failed = {f for e in log for f in e.get('failed', []) if not f.startswith('example')}
open('/tmp/lost_targets', 'w').write('\n'.join(sorted({full(o + f) for f in failed for o in OUTER})))
open('/tmp/lost_claims', 'w').write('\n'.join(claims))
open('/tmp/lost.lean', 'w').write(LEAN)
r = subprocess.run(['lake', 'env', 'lean', '/tmp/lost.lean'], cwd='/verif/lean', capture_output=True, text=True)
if r.returncode: raise SystemExit(r.stdout[:3000] + r.stderr[:3000])
have, dep = {}, {}
for l in r.stdout.split('\n'):
    w = l.split(' ')
    if w[0] == 'HAVE': have[w[1]] = w[2]
    if w[0] == 'DEP': dep.setdefault(w[1], set()).add(w[2].removeprefix('Rustextile.'))
    if w[0] == 'NOCLAIM': print(l)
for e in log:
    if 'claims_lost' not in e: continue
    names, missing = [], []
    for f in e.get('failed', []):
        if f.startswith('example'): names.append(f); continue
        # the changed definitions are accepted by Lean, so a theorem is meant
        q = [o + f for o in OUTER if have.get(full(o + f)) == 'theorem']
        if not q: missing.append(f)
        names += q[:1] or [f]
    if missing:
        e['claims_lost_by_name'] = True
        print(e['id'], 'unresolved', missing); continue
    lost = sorted(set(e['claims_lost']) & {c for f in names for c in dep.get(full(f), ())})
    if names != e['failed'] or lost != sorted(e['claims_lost']):
        print(e['id'], len(e['claims_lost']), '->', len(lost), [n for n in names if n not in e['failed']])
    e['failed'], e['claims_lost'] = names, lost
    e.pop('claims_lost_by_name', None)
open(LOG, 'w').write(''.join(json.dumps(e, ensure_ascii=False) + '\n' for e in log))
