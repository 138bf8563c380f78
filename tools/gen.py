#!/usr/bin/env python3
"""Generate MANIFEST.json from tools/claims.txt and AXIOMS.md from `#print axioms` of every claimed theorem."""
import json, subprocess, os, re, sys
root = os.path.dirname(os.path.dirname(os.path.abspath(__file__)))
ids = [json.loads(l)['id'] for l in open(root + '/properties.jsonl')]
claims = {}
for l in open(root + '/tools/claims.txt'):
    l = l.strip()
    if not l or l.startswith('#'): continue
    p, st, th, note = [x.strip() for x in (l + ' ').split('|', 3)]
    assert p in ids, p
    assert p not in claims, p
    claims[p] = dict(property=p, status=st, theorems=[t.strip() for t in th.split(',') if t.strip()], note=note)
out = []
for i in ids:
    if i in claims: out.append(claims[i])
    else: print('no claim yet:', i)
json.dump({"claims": out}, open(root + '/MANIFEST.json', 'w'), indent=1, ensure_ascii=False)
thms = [t for c in out for t in c['theorems']]
src = 'import Verif\n' + ''.join(f'#print axioms {t}\n' for t in thms)
os.makedirs('/tmp/ax', exist_ok=True)
open('/tmp/ax/ax.lean', 'w').write(src)
r = subprocess.run(['lake', 'env', 'lean', '/tmp/ax/ax.lean'], cwd=root + '/lean', capture_output=True, text=True)
txt = r.stdout + r.stderr
bad = [l for l in txt.splitlines() if ': error' in l or 'error:' in l or 'sorryAx' in l]
if bad: print('\n'.join(bad)); sys.exit(1)
res = re.findall(r"'([^']+)' (depends on axioms: \[[^\]]*\]|does not depend on any axioms)", txt.replace('\n ', ' '))
assert len(res) == len(thms), (len(res), len(thms))
with open(root + '/AXIOMS.md', 'w') as f:
    f.write('# Axioms of every claimed theorem (output of `#print axioms`)\n\nGenerated by tools/gen.py.\n\n')
    for n, a in res: f.write(f'* `{n}` — {a}\n')
used = set(x.strip() for _, a in res if '[' in a for x in a[a.index('[')+1:a.index(']')].split(','))
print('theorems:', len(thms), 'axioms used:', used)
