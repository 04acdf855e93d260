"""Try wrong programs against the theorems.

Usage: mutate.py MUTANTS.json [ID...]

Every entry of MUTANTS.json changes one definition of the model (`file`, `old`, `new`).
The change is made in a copy of /verif/lean, which is then built.  The declarations in
which the build fails are recorded in /verif/seeded/LOG.jsonl, one line for each change.
Modules that import a failing one are not built; the theorems of the manifest in them are
recorded as `blocked`.  With `targets`, only these modules are built.
`claims_lost` are the theorems of the manifest that use a failing declaration; they need
not be false of the changed program, as a proof can fail for its form alone.
"""
import json, os, re, subprocess, sys, shutil

SRC = os.environ.get('MUT_SRC', '/verif/lean')
DST = os.environ.get('MUT_DST', '/tmp/mut/lean')
LOG = '/verif/seeded/LOG.jsonl'

def decls(path):
    """The declarations of a file, with the namespaces inside `Rustextile` in their names."""
    out, ns = [], []
    for i, l in enumerate(open(path), 1):
        m = re.match(r'(namespace|section|end)\b\s*(\S*)', l)
        if m:
            if m.group(1) == 'end':
                if ns: ns.pop()
            else:
                ns.append(m.group(2) if m.group(1) == 'namespace' and m.group(2) != 'Rustextile' else '')
            continue
        m = re.match(r'(?:@\[[^\]]*\] )?(?:private |protected )?(theorem|def|abbrev|example|instance|structure|inductive|pattern)\b\s*([^\s:({\[]*)', l)
        if m:
            n = m.group(2) or m.group(1)
            out.append((i, m.group(1), '.'.join([x for x in ns if x] + [n])))
    return out

def named(n, i, ids, short):
    """The declarations an identifier in the text of `n` can stand for.  `x.d` can stand for
    `T.d` in the namespace `T` and in a text that mentions `T`."""
    i = i.removeprefix('Rustextile.')
    ds = short.get(i.split('.')[-1], set())
    if i in ds: return {i}
    return {d for d in ds if '.' not in d or d.split('.')[-2] in ids
            or n.startswith(d.rsplit('.', 1)[0] + '.')}

def owner(path, line):
    name = '?'
    last = '?'
    for i, k, n in decls(path):
        if i > line: break
        name = n if k != 'example' else 'example after ' + last
        if k != 'example': last = n
    return name

def uses():
    """For every declaration the declarations its text mentions."""
    bodies = {}
    for root, _, fs in os.walk(SRC + '/Verif'):
        for f in fs:
            p = os.path.join(root, f)
            ls = open(p).read().split('\n')
            ds = decls(p)
            for j, (i, k, n) in enumerate(ds):
                end = ds[j + 1][0] - 1 if j + 1 < len(ds) else len(ls)
                if k != 'example':
                    bodies[n] = bodies.get(n, '') + '\n'.join(ls[i - 1:end])
    short = {}
    for n in bodies: short.setdefault(n.split('.')[-1], set()).add(n)
    g = {}
    for n, b in bodies.items():
        ids = set(re.findall(r"[\w.']+", b))
        g[n] = {d for i in ids for d in named(n, i, ids, short)} - {n}
    return g

def reaching(g, targets):
    """The declarations that use one of the targets, directly or not."""
    rev = {}
    for n, ds in g.items():
        for d in ds: rev.setdefault(d, set()).add(n)
    seen, todo = set(targets), list(targets)
    while todo:
        for n in rev.get(todo.pop(), ()):
            if n not in seen: seen.add(n); todo.append(n)
    return seen

def main():
    muts = json.load(open(sys.argv[1]))
    only = set(sys.argv[2:])
    claims = json.load(open('/verif/MANIFEST.json'))['claims']
    claimed = {t.split('.')[-1]: c['property'] for c in claims for t in c['theorems']}
    where = {}
    for root, _, fs in os.walk(SRC + '/Verif'):
        for f in fs:
            p = os.path.join(root, f)
            for _, k, n in decls(p):
                if k == 'theorem' and n.split('.')[-1] in claimed:
                    n = n.split('.')[-1]
                    where[n] = os.path.relpath(p, SRC)[:-5].replace('/', '.')
    g = uses()
    for m in muts:
        if only and m['id'] not in only: continue
        shutil.rmtree(DST, ignore_errors=True)
        subprocess.run(['cp', '-a', SRC, DST], check=True)
        p = os.path.join(DST, m['file'])
        s = open(p).read()
        if s.count(m['old']) != m.get('count', 1):
            print(m['id'], 'does not apply:', s.count(m['old'])); continue
        open(p, 'w').write(s.replace(m['old'], m['new']))
        r = subprocess.run(['lake', 'build'] + m.get('targets', []), cwd=DST, capture_output=True, text=True)
        txt = r.stdout + r.stderr
        failed = []
        for f, l in re.findall(r'error: (Verif[\w/]*\.lean):(\d+):', txt):
            d = owner(os.path.join(DST, f), int(l))
            if d not in failed: failed.append(d)
        built = set(re.findall(r'✔ \[\d+/\d+\] (?:Built|Replayed) (\S+)', txt)) | \
            set(re.findall(r'⚠ \[\d+/\d+\] (?:Built|Replayed) (\S+)', txt))
        lost = sorted({t.split('.')[-1] for t in reaching(g, [f for f in failed if f in g])} & set(claimed))
        blocked = []
        errmods = {f[:-5].replace('/', '.') for f, _ in re.findall(r'error: (Verif[\w/]*\.lean):(\d+):', txt)}
        if r.returncode and 'targets' not in m:
            for t, mod in sorted(where.items()):
                if t in failed or t in lost or mod in errmods: continue
                # a module counts as checked if its olean is current
                q = subprocess.run(['lake', 'build', '--no-build', mod], cwd=DST, capture_output=True)
                if q.returncode: blocked.append(t)
        e = {'id': m['id'], 'definition': m['definition'], 'file': m['file'], 'edit': m['old'].strip() + '  ==>  ' + m['new'].strip(),
             'claim': m['claim'], 'detected': r.returncode != 0, 'failed': failed, 'claims_lost': lost, 'blocked': blocked,
             'tightened': m.get('tightened', [])}
        if 'targets' in m: e['targets'] = m['targets']
        if m.get('note'): e['note'] = m['note']
        with open(LOG, 'a') as h: h.write(json.dumps(e, ensure_ascii=False) + '\n')
        print(m['id'], 'DETECTED' if r.returncode else 'SURVIVED', failed[:6], lost[:8], len(blocked), flush=True)

main()
