#!/usr/bin/env python3
"""Append results of seeded-bug runs (one JSON object per line, argument 1) to seeded/LOG.jsonl.
Hand-written entries in seeded/LOG.jsonl are kept; a run result already logged is not logged twice."""
import json, os, re, sys
root = os.path.dirname(os.path.dirname(os.path.abspath(__file__)))
log = os.path.join(root, 'seeded', 'LOG.jsonl')
title = {}
for l in open(os.path.join(root, 'properties.jsonl')):
    p = json.loads(l); title[p['id']] = p['title']
deps = {}
for l in open(sys.argv[2]) if len(sys.argv) > 2 else []:
    d = json.loads(l); deps[d['name']] = d.get('thms', [])
notes = json.load(open(os.path.join(root, 'seeded', 'notes.json'))) if os.path.exists(os.path.join(root, 'seeded', 'notes.json')) else {}
seen = set()
if os.path.exists(log):
    for l in open(log):
        e = json.loads(l); seen.add((e['definition'], e['edit']))
out = open(log, 'a')
n = 0
for l in open(sys.argv[1]):
    r = json.loads(l)
    if r['status'] == 'stillborn': continue
    edit = f"{r['mod'].replace('.', '/')}.lean line {r['line']}: `{r['old'].strip()}` -> `{r['new'].strip()}`"
    if (r['name'], edit) in seen: continue
    failed = r.get('failed', [])
    ids = sorted({m.group(1) for f in failed + r.get('files', []) for m in [re.search(r'\b(C\d\d+)_', f)] if m})
    if not ids:
        ids = sorted({m.group(1) for _, t in deps.get(r['name'], []) for m in [re.search(r'\b(C\d\d+)_', t)] if m})[:3]
    note = notes.get(r['name'] + '|' + r['new'].strip(), {})
    if r['status'] in ('survived', 'uncovered') and not note: continue   # analysed by hand first
    e = {'definition': r['name'], 'edit': edit,
         'claim': note.get('claim') or '; '.join(f'{i} {title[i]}' for i in ids),
         'failed': failed, 'tightened': note.get('tightened', []), 'outcome': note.get('outcome', r['status'])}
    out.write(json.dumps(e, ensure_ascii=False) + '\n'); n += 1
print(n, 'entries added')
