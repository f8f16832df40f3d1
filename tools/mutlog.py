#!/usr/bin/env python3
"""Append the results of tools/mutate.py (/tmp/mutres.jsonl) to seeded/LOG.jsonl, one line per attempt. Needs /tmp/deps.json from tools/axioms.py:
a theorem of the manifest counts as failed when it, or a lemma its proof uses, no longer compiles.
With --check: only report mutants of which a property named in the claim has no failing theorem."""
import json, os, re, sys
sys.path.insert(0, os.path.dirname(os.path.abspath(__file__)))
from mutants import MUTANTS, TIGHTENED
ROOT = os.path.dirname(os.path.dirname(os.path.abspath(__file__)))
LOG = f'{ROOT}/seeded/LOG.jsonl'
deps = {t: set(d) for t, d in json.load(open('/tmp/deps.json')).items()}
short = lambda n: n.split('.Props.')[-1] if '.Props.' in n else n.replace('Satisfy.', '', 1)
muts = {m['id']: m for m in MUTANTS}
logged = set()
if os.path.exists(LOG):
    logged = {json.loads(l)['mutant'] for l in open(LOG)}
lines = []
last = {}                                       # a later run of a mutant replaces an earlier one
for l in open('/tmp/mutres.jsonl'):
    r = json.loads(l)
    last[r['id']] = r
for r in last.values():
    m = muts.get(r['id'])
    if m is None or r['status'].startswith(('bad', 'inconclusive')) or (r['status'] == 'killed' and not r['failed']):
        print('skipped', r['id'], r['status'])
        continue
    first = [f.split(': ', 1)[1].split(' ', 1) for f in r.get('failed', [])]
    names = {n for k, n in first if k != 'example'}
    hit = lambda c: any(c == 'Satisfy.' + n or c.endswith('.' + n) for n in names)
    failed = [t for t, d in deps.items() if any(hit(c) for c in d | {t})]
    claimed = re.findall(r'C\d\d', m['breaks'])
    missing = [c for c in claimed if not any(short(t).startswith(c) and 'refuted' not in t for t in failed)]
    if missing:
        print(r['id'], 'claims', m['breaks'], 'but nothing fails for', missing, '; failing:', r.get('failed'), len(failed))
    if r['id'] in logged:
        continue
    logged.add(r['id'])
    lines.append({'mutant': r['id'], 'definition': f"{m['file']}: {m['definition']}", 'edit': m['edit'], 'claim': m['breaks'], 'result': r['status'],
                  'fails_first': [f'{k} {n}'.strip() for k, n in first], 'theorems_failed': sorted(short(t) for t in failed),
                  'theorems_tightened': TIGHTENED.get(r['id'], [])})
if '--check' not in sys.argv:
    with open(LOG, 'a') as f:
        f.writelines(json.dumps(x, ensure_ascii=False) + '\n' for x in lines)
    print(len(lines), 'lines added')
