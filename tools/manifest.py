#!/usr/bin/env python3
"""Regenerate MANIFEST.json: every theorem named Cnn_* in lean/Verif/Props, grouped by property."""
import glob, json, os, re
root = os.path.dirname(os.path.dirname(os.path.abspath(__file__)))
notes = json.load(open(os.path.join(root, 'tools', 'manifest_notes.json')))
props = [json.loads(l)['id'] for l in open(os.path.join(root, 'properties.jsonl'))]
thms = {p: [] for p in props}
docs = {}
for f in sorted(glob.glob(os.path.join(root, 'lean/Verif/Props/**/*.lean'), recursive=True)):
    ns = []
    text = open(f).read()
    for d, t in re.findall(r'/--((?:(?!-/).)*?)-/\s*theorem (\S+)', text, re.S):
        docs[t] = ' '.join(d.split())
    for line in open(f):
        m = re.match(r'namespace (\S+)', line)
        if m: ns.append(m.group(1))
        m = re.match(r'end (\S+)', line)
        if m and ns and ns[-1] == m.group(1): ns.pop()
        m = re.match(r'(?:@\[[^\]]*\] )?theorem (?:_root_\.Cgl\.)?((C\d\d+)_\S+)', line)
        if m: thms[m.group(2)].append("Cgl." + m.group(1) if "_root_" in line else ".".join(ns + [m.group(1)]))
claims = []
for p in props:
    if not thms[p]: continue
    n = notes.get(p, {})
    status = n.get('status') or ('partial' if any(t.endswith('_partial') for t in thms[p]) else 'proved')
    short = [t.split('.')[-1] for t in thms[p]]
    note = [n['note']] if 'note' in n else []
    note += ['%s: %s' % (t, docs[t]) for t in short if t.endswith('_fails') and t in docs]
    note += ['%s: %s' % (t, docs[t]) for t in short if t.endswith('_partial') and t in docs]
    claims.append({'property': p, 'status': status, 'theorems': thms[p], 'note': ' '.join(note)})
json.dump({'claims': claims}, open(os.path.join(root, 'MANIFEST.json'), 'w'), indent=1, ensure_ascii=False)
print(len(claims), 'claims', sum(len(c['theorems']) for c in claims), 'theorems;',
      'partial:', [c['property'] for c in claims if c['status'] == 'partial'],
      'missing:', [p for p in props if not thms[p]])
