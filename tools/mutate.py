#!/usr/bin/env python3
"""Mutation testing of the theorems: apply one edit of tools/mutants.py to a scratch copy of the Lean project, rebuild, report.

usage: mutate.py [--deep] [--keep] [ids...]      (default: all mutants that are not yet in /tmp/mutres.jsonl)
With --deep the proofs that fail are replaced by `sorry` in the scratch copy and the build goes on, until everything that fails is known.
With --noexamples the proofs of the examples are left out: evaluating a wrong one may take too much memory.
With --keep the copy of the project made by the last run is used.
Results go to /tmp/mutres.jsonl; tools/mutlog.py turns them into seeded/LOG.jsonl.
"""
import glob, json, os, re, shutil, subprocess, sys, time
sys.path.insert(0, os.path.dirname(__file__))
from mutants import MUTANTS

SRC, DST, PRISTINE, RES = '/verif/lean', '/tmp/mut/lean', '/tmp/mut/pristine', '/tmp/mutres.jsonl'
DECL = re.compile(r'^(?:@\[[^\]]*\]\s*)?(?:private |protected |noncomputable )*(theorem|lemma|def|abbrev|instance|example|structure|inductive)\b\s*(\S*)')


def decl_at(path, line):
    lines = open(path).read().split('\n')
    for i in range(min(line, len(lines)) - 1, -1, -1):
        m = DECL.match(lines[i])
        if m:
            return m.group(1), m.group(2)
    return '?', '?'


def blank(path, line):
    """Replace the proof of the declaration around this line by sorry. False if that was not possible."""
    lines = open(path).read().split('\n')
    i = min(line, len(lines)) - 1
    while i >= 0 and not DECL.match(lines[i]):
        i -= 1
    if i < 0 or DECL.match(lines[i]).group(1) not in ('theorem', 'lemma', 'example'):
        return False
    j = i + 1
    while j < len(lines) and (lines[j].startswith((' ', '\t')) or (lines[j] == '' and j + 1 < len(lines) and lines[j + 1].startswith(' '))):
        j += 1
    text, depth = '\n'.join(lines[i:j]), 0
    for k, ch in enumerate(text):
        if ch in '([{⟨':
            depth += 1
        elif ch in ')]}⟩':
            depth -= 1
        elif depth == 0 and text.startswith(':=', k) and not re.search(r'\b(let|have)\s[^\n;]*$', text[:k]):
            break
    else:
        return False
    new = text[:k] + ':= sorry'
    if new == text:
        return False
    open(path, 'w').write('\n'.join(lines[:i] + new.split('\n') + lines[j:]))
    return True


def drop_examples(root):
    """Remove the examples (with the lines indented below them)."""
    for f in glob.glob(f'{root}/Verif/Props/*.lean'):
        out, skip, text = [], False, False
        for l in open(f).read().split('\n'):
            if text:                                # inside a text of several lines
                text = l.count('"') % 2 == 0
                continue
            text = l.startswith('example') and l.replace("'\"'", '').count('"') % 2 == 1
            skip = l.startswith('example') or (skip and (l == '' or l.startswith((' ', '\t'))))
            if l.startswith('example'):             # and the comment above
                while out and out[-1].strip() and not out[-1].startswith('/--') and '-/' in '\n'.join(out[-6:]) and not out[-1].startswith((' ', 'theorem')):
                    out.pop()
                if out and out[-1].startswith('/--'):
                    out.pop()
            if not skip:
                out.append(l)
        open(f, 'w').write('\n'.join(out) + '\n')


def run(mu, deep=False):
    if os.path.exists(DST):
        shutil.rmtree(DST)
    shutil.copytree(PRISTINE, DST)
    path = f'{DST}/Verif/{mu["file"]}'
    text = open(path).read()
    n = text.count(mu['old'])
    if n != 1:
        return {'id': mu['id'], 'status': f'bad: {n} matches'}
    open(path, 'w').write(text.replace(mu['old'], mu['new']))
    t = time.time()
    failed, status = [], None
    while True:
        out = subprocess.run(['lake', 'build'], cwd=DST, capture_output=True, text=True)
        txt = out.stdout + out.stderr
        where = {}
        for m in re.finditer(r'error: (Verif/\S+\.lean):(\d+):(\d+)', txt):
            kind, name = decl_at(f'{DST}/{m.group(1)}', int(m.group(2)))
            item = f'{m.group(1)[6:-5]}: {kind} {name}'
            if item not in failed:
                failed.append(item)
            where.setdefault((m.group(1), item), int(m.group(2)))
        # a build that fails without an error in a declaration (lean out of memory, stopped) says nothing about the theorems
        status = status or ('survived' if out.returncode == 0 else 'killed' if where else 'inconclusive')
        if not deep or out.returncode == 0:
            break
        # from the bottom, so that line numbers stay right
        if not any([blank(f'{DST}/{f}', n) for (f, _), n in sorted(where.items(), key=lambda x: -x[1])]):
            break
    return {'id': mu['id'], 'status': status, 'deep': deep and out.returncode == 0, 'failed': failed, 'secs': round(time.time() - t),
            'tail': '' if failed or out.returncode == 0 else txt[-1500:]}


def main():
    deep = '--deep' in sys.argv
    ids = [x for x in sys.argv[1:] if not x.startswith('--')]
    done = set()
    if os.path.exists(RES):
        done = {json.loads(l)['id'] for l in open(RES)}
    todo = [m for m in MUTANTS if (m['id'] in ids if ids else m['id'] not in done)]
    if '--keep' not in sys.argv and os.path.exists(PRISTINE):
        shutil.rmtree(PRISTINE)
    if not os.path.exists(PRISTINE):
        shutil.copytree(SRC, PRISTINE)
    if '--noexamples' in sys.argv:
        drop_examples(PRISTINE)
    # the control: without an edit everything has to compile
    out = subprocess.run(['lake', 'build'], cwd=PRISTINE, capture_output=True, text=True)
    if out.returncode != 0:
        sys.exit('the copy without an edit does not build:\n' + (out.stdout + out.stderr)[-3000:])
    for m in todo:
        r = run(m, deep)
        with open(RES, 'a') as f:
            f.write(json.dumps(r) + '\n')
        print(r, flush=True)


main()
